import Verif.Spec.Arith
import Verif.Spec.Peg
import Verif.Lemmas.Pratt
import Verif.Lemmas.Peg
import Verif.Lemmas.SynCut

/-!
Operator expressions of the arithmetic example.
-/

namespace Fall

open Spec

theorem Spec.Items.resolveWith_append {I : Items} (J : Items) (first : List Event) (h : I.WF)
    (hf : first = [] ∨ I.HeadNode) :
    Items.resolveWith first (I.append J) = Items.resolveWith first I ++ Items.resolve J := by
  induction I generalizing first with
  | nil =>
    rcases hf with rfl | hf
    · simp [Items.append, Items.resolveWith, Items.resolve]
    · cases hf
  | tok ty n rest ih =>
    have := ih [] h (Or.inl rfl)
    simp [Items.append, Items.resolveWith, this]
  | cached key body rest _ ih =>
    have := ih [] h.2 (Or.inl rfl)
    simp [Items.append, Items.resolveWith, this]
  | node ty body rest _ ih =>
    have := ih [] h.2 (Or.inl rfl)
    simp [Items.append, Items.resolveWith, this]
  | link ty body mids rest _ _ ih =>
    simp only [Items.append, Items.resolveWith]
    exact ih _ h.2.2.1 (Or.inr h.2.2.2)
  | loop => exact h.elim

namespace Arithmetic

/-- The operator table of the grammar. -/
def table : PrattTable :=
  ⟨[4, 5], [⟨16, 21, 999⟩], [⟨12, 14, 1, true⟩, ⟨11, 19, 2, true⟩, ⟨15, 20, 999, false⟩]⟩

/-- The tokens of its operators. -/
def toks : Nat → List NodeType
  | 21 => [103]
  | 14 => [102, 103]
  | 19 => [104, 105]
  | 20 => [106]
  | _ => []

theorem tokenTable : TokenTable arithGrammar table toks where
  prefixTok := by
    simp only [table, List.mem_singleton, forall_eq]
    exact .token (e := 21) (ty := 4) rfl rfl
  infixTok := by
    simp only [table, List.mem_cons, List.not_mem_nil, or_false, forall_eq_or_imp, forall_eq]
    refine ⟨?_, ?_, ?_⟩
    · exact .or (alts := [(11, [102]), (13, [103])]) (e := 14) rfl (by
        simp only [List.mem_cons, List.not_mem_nil, or_false, forall_eq_or_imp, forall_eq]
        exact ⟨.and (p := 10) rfl (.token (ty := 3) rfl rfl), .and (p := 12) rfl (.token (ty := 4) rfl rfl)⟩)
    · exact .or (alts := [(16, [104]), (18, [105])]) (e := 19) rfl (by
        simp only [List.mem_cons, List.not_mem_nil, or_false, forall_eq_or_imp, forall_eq]
        exact ⟨.and (p := 15) rfl (.token (ty := 5) rfl rfl), .and (p := 17) rfl (.token (ty := 6) rfl rfl)⟩)
    · exact .token (e := 20) (ty := 7) rfl rfl
  prefixTy := by decide
  infixTy := by decide
  prefixes := by decide
  infixes := by decide

/-- The expression as an operator expression. -/
def op : Arith → OpTree
  | .num => .operand 112 (.tok 101 1 .nil)
  | .paren a => .operand 113 (.tok 107 1 (((op a).items (typeOf arithGrammar)).append (.tok 108 1 .nil)))
  | .neg a => .pre ⟨16, 21, 999⟩ 103 (op a)
  | .fact a => .post ⟨15, 20, 999, false⟩ 106 (op a)
  | .sum m l r => .bin ⟨12, 14, 1, true⟩ (if m then 103 else 102) (op l) (op r)
  | .prod d l r => .bin ⟨11, 19, 2, true⟩ (if d then 105 else 104) (op l) (op r)

theorem op_grouped (a : Arith) (ha : a.Proper) : (op a).Grouped ∧
    (2 ≤ a.level → (op a).above 2) ∧ (3 ≤ a.level → (op a).above 999) ∧
    (op a).heldBy 1 ∧ (2 ≤ a.level → (op a).heldBy 2) ∧ (4 ≤ a.level → (op a).heldBy 999) := by
  induction a with
  | num => simp [op, OpTree.Grouped, OpTree.above, OpTree.heldBy]
  | paren a ih => simp [op, OpTree.Grouped, OpTree.above, OpTree.heldBy]
  | neg a ih =>
    obtain ⟨h1, h2⟩ := ha
    obtain ⟨i1, i2, i3, i4, i5, i6⟩ := ih h2
    simp [op, OpTree.Grouped, OpTree.above, OpTree.heldBy, Arith.level, i1, i3 h1, i4, i5 (by omega)]
  | fact a ih =>
    obtain ⟨h1, h2⟩ := ha
    obtain ⟨i1, i2, i3, i4, i5, i6⟩ := ih h2
    simp [op, OpTree.Grouped, OpTree.above, OpTree.heldBy, Arith.level, i1, i2 (by omega), i3 (by omega), i6 h1]
  | sum m l r ihl ihr =>
    obtain ⟨h1, h2, h3⟩ := ha
    obtain ⟨i1, i2, i3, i4, i5, i6⟩ := ihl h2
    obtain ⟨j1, j2, j3, j4, j5, j6⟩ := ihr h3
    simp [op, OpTree.Grouped, OpTree.above, OpTree.heldBy, Arith.level, i1, i4, j1, j2 h1, j4]
  | prod d l r ihl ihr =>
    obtain ⟨h1, h2, h3, h4⟩ := ha
    obtain ⟨i1, i2, i3, i4, i5, i6⟩ := ihl h3
    obtain ⟨j1, j2, j3, j4, j5, j6⟩ := ihr h4
    have mono : ∀ (p q : Nat) (T : OpTree), p ≤ q → T.above q → T.above p := by
      intro p q T hpq
      induction T with
      | operand => exact fun _ => trivial
      | pre => exact fun _ => trivial
      | bin ix t l r ihl _ => exact fun h => ⟨Nat.le_trans hpq h.1, ihl h.2⟩
      | post ix t l ihl => exact fun h => ⟨Nat.le_trans hpq h.1, ihl h.2⟩
      | missing ix t l ihl => exact fun h => ⟨Nat.le_trans hpq h.1, ihl h.2⟩
    have j7 := mono 3 999 _ (by omega) (j3 h2)
    simp [op, OpTree.Grouped, OpTree.above, OpTree.heldBy, Arith.level, i1, i2 h1, i5 h1, j1, j7, j4, j5 (by omega)]

theorem op_wf (a : Arith) : (op a).OperandsWF := by
  induction a with
  | num => trivial
  | paren a ih => exact (Items.WF.append ((op a).items_wf _ ih).1 (J := .tok 108 1 .nil) trivial)
  | neg a ih => exact ih
  | fact a ih => exact ih
  | sum m l r ihl ihr => exact ⟨ihl, ihr⟩
  | prod d l r ihl ihr => exact ⟨ihl, ihr⟩

theorem op_events (a : Arith) : (op a).events (typeOf arithGrammar) = a.tree := by
  induction a with
  | num => rfl
  | paren a ih =>
    have h := Items.resolveWith_append (.tok 108 1 .nil) []
      ((op a).items_wf (typeOf arithGrammar) (op_wf a)).1 (Or.inl rfl)
    have h2 := (op a).items_resolve (typeOf arithGrammar)
    rw [ih] at h2
    simp only [Items.resolve] at h2 h
    simp [op, OpTree.events, Arith.tree, Items.resolve, Items.resolveWith, h, h2]
  | neg a ih => simp [op, OpTree.events, Arith.tree, ih]; rfl
  | fact a ih => simp [op, OpTree.events, Arith.tree, ih]; rfl
  | sum m l r ihl ihr => simp [op, OpTree.events, Arith.tree, ihl, ihr]; rfl
  | prod d l r ihl ihr => simp [op, OpTree.events, Arith.tree, ihl, ihr]; rfl

variable {env : Env}

/-- Token of the input. -/
theorem Input.at {i stop : Nat} {t : NodeType} {ts : List NodeType} (h : Input env ⟨i, stop⟩ (t :: ts)) :
    TokenAt env stop i t ∧ Input env ⟨i + 1, stop⟩ ts := by
  cases h with | cons h1 h2 h3 => exact ⟨⟨h1, h2⟩, h3⟩

theorem TokenAt.eq {i stop : Nat} {t t' : NodeType} (h : TokenAt env stop i t) (h' : TokenAt env stop i t') :
    t = t' := by
  have := h'.2
  rw [h.2] at this
  simpa using this

theorem spells_trans {table : PrattTable} {toks : Nat → List NodeType} {stop i j k : Nat} {a b : List Lexeme}
    (h : Spells env table toks stop i j a) (h' : Spells env table toks stop j k b) :
    Spells env table toks stop i k (a ++ b) := by
  induction h with
  | nil => exact h'
  | operand h1 _ ih => exact .operand h1 (ih h')
  | pre h1 h2 h3 h4 _ ih => exact .pre h1 h2 h3 h4 (ih h')
  | op h1 h2 h3 h4 _ ih => exact .op h1 h2 h3 h4 (ih h')
  | post h1 h2 h3 h4 _ ih => exact .post h1 h2 h3 h4 (ih h')
  | missing h1 _ ih => exact .missing h1 (ih h')

/-- A rule for a single token makes a node of it. -/
theorem choice_number : Choice arithGrammar 38 [101] := .or (alts := [(37, [101])]) rfl (by
  simp only [List.mem_singleton, forall_eq]
  exact .and (p := 36) rfl (.token (ty := 2) rfl rfl))

theorem choice_lparen : Choice arithGrammar 39 [107] := .token (ty := 8) rfl rfl

theorem choice_rparen : Choice arithGrammar 40 [108] := .token (ty := 9) rfl rfl

variable (hg : env.grammar = arithGrammar) (hE : EnvOk env) {stop : Nat} (hstop : stop ≤ env.nonWs.length)

include hg hE hstop

open Parser in
theorem runs_choice {e i : Nat} {ts : List NodeType} (h : Choice arithGrammar e ts) (hi : i ≤ stop) {t : NodeType}
    (ht : t ∈ ts) (hat : TokenAt env stop i t) (s : PState) (hs : s.predicate = false) :
    ∃ s', Runs env e ⟨i, stop⟩ s (some ⟨i + 1, stop⟩) s' ∧ s'.events = s.events ++ [.token t 1] ∧
      s'.predicate = false := by
  rw [← hg] at h
  rcases oneOf_of_choice hE h ⟨i, stop⟩ s ⟨hi, hstop⟩ hs with ⟨t', _, hat', s', hr, hev, hp⟩ | ⟨hno, _⟩
  · obtain rfl := TokenAt.eq hat hat'
    exact ⟨s', hr, hev, hp⟩
  · exact absurd hat (hno t ht)

open Parser in
theorem runs_choice_none {e i : Nat} {ts : List NodeType} (h : Choice arithGrammar e ts) (hi : i ≤ stop)
    {t : NodeType} (ht : t ∉ ts) (hat : TokenAt env stop i t) (s : PState) (hs : s.predicate = false) :
    ∃ s', Runs env e ⟨i, stop⟩ s none s' ∧ s'.predicate = false := by
  rw [← hg] at h
  rcases oneOf_of_choice hE h ⟨i, stop⟩ s ⟨hi, hstop⟩ hs with ⟨t', ht', hat', _⟩ | ⟨_, s', hr, _, hp⟩
  · obtain rfl := TokenAt.eq hat hat'
    exact absurd ht' ht
  · exact ⟨s', hr, hp⟩

open Parser in
theorem runs_number_none {i : Nat} (hi : i ≤ stop) {t : NodeType} (ht : t ≠ 101) (hat : TokenAt env stop i t)
    (s : PState) (hs : s.predicate = false) : ∃ s', Runs env 4 ⟨i, stop⟩ s none s' ∧ s'.predicate = false := by
  obtain ⟨s1, h1, hp⟩ := runs_choice_none hg hE hstop choice_number hi (t := t) (by simpa using ht) hat
    (emit (ticked s) [.start 112 none]) (by simp [emit, ticked, hs])
  exact ⟨rewind s1 s, (runs_pub (t := 112) (by rw [hg]; rfl) (by rw [hg]; rfl)).2 ⟨s1, h1, by simp⟩, hp⟩

open Parser in
theorem runs_paren_none {i : Nat} (hi : i ≤ stop) {t : NodeType} (ht : t ≠ 107) (hat : TokenAt env stop i t)
    (s : PState) (hs : s.predicate = false) : ∃ s', Runs env 5 ⟨i, stop⟩ s none s' := by
  obtain ⟨s1, h1, hp⟩ := runs_choice_none hg hE hstop choice_lparen hi (t := t) (by simpa using ht) hat
    (ticked (ticked (emit (ticked s) [.start 113 none]))) (by simp [emit, ticked, hs])
  refine ⟨_, (runs_pub (t := 113) (by rw [hg]; rfl) (by rw [hg]; rfl)).2 ⟨_, (runs_or (by rw [hg]; rfl)).2
    ⟨_, .next ((runs_and (parts := [39, 1, 40]) (commit := none) (by rw [hg]; rfl)).2
      ⟨0, _, _, .stuck h1, Or.inl ⟨by simp, rfl, rfl⟩⟩) .none, rfl⟩, rfl⟩⟩

open Parser in
theorem noOperand {i : Nat} (hi : i ≤ stop) {t : NodeType} (h1 : t ≠ 101) (h2 : t ≠ 107)
    (hat : TokenAt env stop i t) : NoOperandAt env table stop i := by
  intro s hs
  obtain ⟨s1, hr1, hp1⟩ := runs_number_none hg hE hstop hi h1 hat s hs
  obtain ⟨s2, hr2⟩ := runs_paren_none hg hE hstop hi h2 hat s1 hp1
  exact ⟨s2, .next hr1 (.next hr2 .none)⟩

open Parser in
theorem operand_number {i : Nat} (hi : i ≤ stop) (hat : TokenAt env stop i 101) :
    OperandAt env table stop i (i + 1) 112 (.tok 101 1 .nil) := by
  refine ⟨by have := hat.1; omega, trivial, fun s hs => ?_⟩
  obtain ⟨s1, h1, hev, hp⟩ := runs_choice hg hE hstop choice_number hi (by simp) hat
    (emit (ticked s) [.start 112 none]) (by simp [emit, ticked, hs])
  refine ⟨_, .found ((runs_pub (t := 112) (by rw [hg]; rfl) (by rw [hg]; rfl)).2 ⟨s1, h1, rfl⟩), ?_⟩
  simp [emit, hp, hev, ticked, hs, Items.encode]

open Parser in
theorem operand_paren {i j : Nat} (hi : i ≤ stop) (hat : TokenAt env stop i 107) {T : OpTree} (hT : T.Grouped)
    (hs : Spells env table toks stop (i + 1) j T.yield) (hat' : TokenAt env stop j 108) :
    OperandAt env table stop i (j + 1) 113
      (.tok 107 1 ((T.items (typeOf arithGrammar)).append (.tok 108 1 .nil))) := by
  have hi' : i + 1 ≤ stop := by have := hat.1; omega
  have hj := spells_le hs hi'
  refine ⟨by have := hat'.1; omega, ?_, fun s hp => ?_⟩
  · exact (Items.WF.append (T.items_wf _ (spells_wf hs)).1 (J := .tok 108 1 .nil) trivial)
  obtain ⟨s0, hr0, hp0⟩ := runs_number_none hg hE hstop hi (by decide) hat s hp
  have he0 := hr0.fail_events
  obtain ⟨s1, hr1, he1, hp1⟩ := runs_choice hg hE hstop choice_lparen hi (by simp) hat
    (ticked (ticked (emit (ticked s0) [.start 113 none]))) (by simp [emit, ticked, hp0])
  have hno : NoOpAt env table toks stop j := by
    intro ix hix t ht h
    obtain rfl := TokenAt.eq hat' h
    revert ix
    decide
  obtain ⟨s2, hr2, he2⟩ := runs_pratt (toks := toks) hE (by rw [hg]; exact tokenTable) hstop (e := 1)
    (by rw [hg]; rfl) hT hi' hs hno s1 hp1
  have hp2 : s2.predicate = false := by
    obtain ⟨n, h⟩ := hr2
    exact (parseExpr_keeps 0 _ _ _ _ _ (Nat.zero_le _) h).1.2.2.trans hp1
  obtain ⟨s3, hr3, he3, hp3⟩ := runs_choice hg hE hstop choice_rparen hj (by simp) hat' s2 hp2
  refine ⟨_, .next hr0 (.found ((runs_pub (t := 113) (by rw [hg]; rfl) (by rw [hg]; rfl)).2
    ⟨s3, (runs_or (by rw [hg]; rfl)).2 ⟨s3, .found ((runs_and (parts := [39, 1, 40]) (commit := none)
      (by rw [hg]; rfl)).2 ⟨3, ⟨j + 1, stop⟩, s3, .step hr1 (.step hr2 (.step hr3 .all)),
        Or.inr ⟨by simp, rfl, by simp⟩⟩), by simp⟩, rfl⟩)), ?_⟩
  simp only [reduceCtorEq, if_false]
  rw [hg] at he2
  simp [emit, hp3, he3, he2, he1, ticked, hp0, he0, Items.encode, Items.encode_append]

/-- The tokens of an expression are those of the operator expression. -/
theorem spells_op (a : Arith) (ha : a.Proper) {i : Nat} {rest : List NodeType} (hi : i ≤ stop)
    (h : Input env ⟨i, stop⟩ (a.tokens ++ rest)) :
    ∃ j, Spells env table toks stop i j (op a).yield ∧ j ≤ stop ∧ Input env ⟨j, stop⟩ rest := by
  induction a generalizing i rest with
  | num =>
    obtain ⟨h1, h2⟩ := Input.at h
    have := h1.1
    exact ⟨i + 1, .operand (operand_number hg hE hstop hi h1) .nil, by omega, h2⟩
  | paren a ih =>
    simp only [Arith.tokens, List.cons_append, List.append_assoc] at h
    obtain ⟨h1, h2⟩ := Input.at h
    have := h1.1
    obtain ⟨j, h3, h4, h5⟩ := ih ha (by omega) h2
    obtain ⟨h6, h7⟩ := Input.at h5
    have := h6.1
    exact ⟨j + 1, .operand (operand_paren hg hE hstop hi h1 (op_grouped a ha).1 h3 h6) .nil, by omega, h7⟩
  | neg a ih =>
    obtain ⟨h1, h2⟩ := Input.at h
    have := h1.1
    obtain ⟨j, h3, h4, h5⟩ := ih ha.2 (by omega) h2
    exact ⟨j, .pre (by decide) (by decide) h1 (noOperand hg hE hstop hi (by decide) (by decide) h1) h3, h4, h5⟩
  | fact a ih =>
    simp only [Arith.tokens, List.cons_append, List.nil_append, List.append_assoc] at h
    obtain ⟨j, h3, h4, h5⟩ := ih ha.2 hi h
    obtain ⟨h6, h7⟩ := Input.at h5
    have := h6.1
    exact ⟨j + 1, spells_trans h3 (.post (by decide) rfl (by decide) h6 .nil), by omega, h7⟩
  | sum m l r ihl ihr =>
    simp only [Arith.tokens, List.cons_append, List.append_assoc] at h
    obtain ⟨j, h3, h4, h5⟩ := ihl ha.2.1 hi h
    obtain ⟨h6, h7⟩ := Input.at h5
    have := h6.1
    obtain ⟨k, h8, h9, h10⟩ := ihr ha.2.2 (by omega) h7
    exact ⟨k, spells_trans h3 (.op (by decide) rfl (by cases m <;> decide) h6 h8), h9, h10⟩
  | prod d l r ihl ihr =>
    simp only [Arith.tokens, List.cons_append, List.append_assoc] at h
    obtain ⟨j, h3, h4, h5⟩ := ihl ha.2.2.1 hi h
    obtain ⟨h6, h7⟩ := Input.at h5
    have := h6.1
    obtain ⟨k, h8, h9, h10⟩ := ihr ha.2.2.2 (by omega) h7
    exact ⟨k, spells_trans h3 (.op (by decide) rfl (by cases d <;> decide) h6 h8), h9, h10⟩

omit hg hE hstop in
open Parser in
/-- The parser on the tokens of an expression. -/
theorem parse_tokens (a : Arith) (ha : a.Proper) (text : List Nat) (tokens : List Token)
    (hlen : (tokens.map (·.len)).sum ≤ text.length)
    (hsig : (tokens.filter fun t => !arithIsWs t.ty).map (·.ty) = a.tokens) :
    ∃ n ticks, synParse (Env.new none arithGrammar arithIsWs text tokens) n =
      .ok ((Items.node 109 ((op a).items (typeOf arithGrammar)) .nil).encode, ticks) := by
  have hE : EnvOk (Env.new none arithGrammar arithIsWs text tokens) := envOk_new hlen
  have hin := input_start (cache := none) (g := arithGrammar) (isWs := arithIsWs) (text := text)
    (tokens := tokens)
  rw [hsig, ← List.append_nil a.tokens] at hin
  generalize henv : Env.new none arithGrammar arithIsWs text tokens = env at hE hin ⊢
  have hg : env.grammar = arithGrammar := by rw [← henv]; rfl
  have hst : env.startPos = ⟨0, env.nonWs.length⟩ := rfl
  rw [hst] at hin
  obtain ⟨j, hsp, hj, hrest⟩ := spells_op hg hE (Nat.le_refl _) a ha (Nat.zero_le _) hin
  have hjs : j = env.nonWs.length := by cases hrest with | nil h => exact h
  subst hjs
  have hno : NoOpAt env table toks env.nonWs.length env.nonWs.length := fun _ _ _ _ h => h.1 rfl
  obtain ⟨s1, hr, hev⟩ := runs_pratt (toks := toks) hE (by rw [hg]; exact tokenTable) (Nat.le_refl _) (e := 1)
    (by rw [hg]; rfl) (op_grouped a ha).1 (Nat.zero_le _) hsp hno
    (ticked (ticked (emit (ticked .new) [.start 109 none]))) rfl
  have hp1 : s1.predicate = false := by
    obtain ⟨n, h⟩ := hr
    exact (parseExpr_keeps 0 _ _ _ _ _ (Nat.zero_le _) h).1.2.2
  have hrun : Runs env 0 ⟨0, env.nonWs.length⟩ .new (some ⟨env.nonWs.length, env.nonWs.length⟩)
      { emit s1 [.fin] with prev := some 109 } :=
    (runs_pub (t := 109) (by rw [hg]; rfl) (by rw [hg]; rfl)).2 ⟨s1, (runs_or (by rw [hg]; rfl)).2
      ⟨s1, .found ((runs_and (parts := [1]) (commit := none) (by rw [hg]; rfl)).2 ⟨1, _, s1, .step hr .all,
        Or.inr ⟨by simp, rfl, by simp⟩⟩), by simp⟩, by simp⟩
  obtain ⟨n, hn⟩ := hrun
  refine ⟨n, (emit s1 [.fin]).ticks, ?_⟩
  have hm : parseMain env n .new = .ok () { emit s1 [.fin] with prev := some 109 } := by
    unfold parseMain
    refine P.bind_ok.2 ⟨some ⟨env.nonWs.length, env.nonWs.length⟩, { emit s1 [.fin] with prev := some 109 }, ?_,
      P.bind_ok.2 ⟨_, _, P.lift_ok.2 ⟨rfl, rfl⟩, ?_⟩⟩
    · rw [hst, show env.grammar.startRule = 0 by rw [hg]; rfl]
      exact hn
    · simp [Pos.isEmpty, P.cond]
      rfl
  unfold synParse
  rw [hm]
  simp only [emit, hp1, hev, hg]
  simp [ticked, emit, Items.encode, PState.new]

end Arithmetic

end Fall
