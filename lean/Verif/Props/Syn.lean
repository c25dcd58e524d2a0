import Verif.Lemmas.ConvertSpaces
import Verif.Props.Lex
import Verif.Props.Tree

/-!
Property theorems for the grammar interpreter and the conversion of events to a tree: C24 - C31, C53.

As the interpreter is modelled with a budget `n`, "parsing gives ..." is `= .ok ...` for some `n`.
-/

namespace Fall
open Spec Convert

/-! ## A language for the examples -/

/-- Spaces (1), numbers (2), plus signs (3); anything else is an error. -/
def sumLexer : Lexer Nat
  | [] => ⟨0, 0⟩
  | c :: rest =>
    if c = 32 then ⟨1, 1 + (rest.takeWhile (· == 32)).length⟩
    else if c = 43 then ⟨3, 1⟩
    else if 48 ≤ c ∧ c ≤ 57 then ⟨2, 1 + (rest.takeWhile fun c => 48 ≤ c && c ≤ 57).length⟩
    else ⟨0, 1⟩

theorem sumLexer_progress : Progress sumLexer := by
  intro text h
  cases text with
  | nil => simp at h
  | cons c rest =>
    have h1 := (List.takeWhile_prefix (· == 32) (l := rest)).length_le
    have h2 := (List.takeWhile_prefix (fun c => 48 ≤ c && c ≤ 57) (l := rest)).length_le
    simp only [sumLexer, List.length_cons]
    split
    · simp only; omega
    · split
      · simp
      · split
        · simp only; omega
        · simp

/-- Sums of numbers with an optional minus-free tail: `file = sum`, where `sum` is an operator
expression over literals. Node types: 4 file, 5 sum, 6 literal. -/
def sumGrammar : Grammar where
  nodeTypes := [4, 6, 5, 2, 3]
  rules := [.pub 0 1 false, .pratt ⟨[2], [], [⟨2, 4, 1, true⟩]⟩, .pub 1 3 false, .token 3, .token 4]
  startRule := 0

def sumDefinition : Definition where
  nodeTypes := sumGrammar.nodeTypes
  rules := sumGrammar.rules
  binder _ _ _ := 0
  lexer := sumLexer
  isWs ty := ty == 1

/-- ` 1+23 + 4 5` -/
def sumText : List Nat := [32, 49, 43, 50, 51, 32, 43, 32, 52, 32, 53]

def sumTokens : List Token :=
  [⟨1, 1⟩, ⟨2, 1⟩, ⟨3, 1⟩, ⟨2, 2⟩, ⟨1, 1⟩, ⟨3, 1⟩, ⟨1, 1⟩, ⟨2, 1⟩, ⟨1, 1⟩, ⟨2, 1⟩]

def sumEnv : Env := Env.new none sumGrammar (· == 1) sumText sumTokens

def sumEvents : List Event :=
  [.start 4 none, .start 6 (some 3), .token 2 1, .fin,
    .start 5 (some 6), .token 3 1, .start 6 none, .token 2 1, .fin, .fin,
    .start 5 none, .token 3 1, .start 6 none, .token 2 1, .fin, .fin,
    .start 0 none, .token 2 1, .fin, .fin]

theorem sumEnv_parse : synParse sumEnv 12 = .ok (sumEvents, 11) := by decide +kernel

/-! ## C24 failure leaves no trace -/

/-- C24. Whatever the outcome of an expression, contexts, arguments and lookahead mode are as before,
and the events from before are still there; if it fails, there are no others. This holds with a
reparse cache too. -/
theorem C24_failure_leaves_no_trace (env : Env) (n e : Nat) (pos : Pos) (s s' : PState)
    (r : Option Pos) (h : Parser.parseExpr env n e pos s = .ok r s') :
    s'.contexts = s.contexts ∧ s'.args = s.args ∧ s'.predicate = s.predicate ∧
      s.events <+: s'.events ∧ (r = none → s'.events = s.events) := by
  obtain ⟨⟨h1, h2, h3⟩, h4, h5, _⟩ := Parser.parseExpr_keeps s.events.length e pos s r s'
    (Nat.le_refl _) h
  refine ⟨h1, h2, h3, ?_, ?_⟩
  · rw [List.take_length] at h5
    exact ⟨s'.events.drop s.events.length, by
      have := List.take_append_drop s.events.length s'.events
      rwa [h5] at this⟩
  · rintro rfl
    exact Parser.parseExpr_none h

/-- A rule that reads `1+`, marks it as a node, and then fails as there is no second plus sign. -/
def failEnv : Env :=
  Env.new none ⟨[4, 2, 3], [.and [1, 4, 4] none, .pub 0 2 false, .and [3, 4] none, .token 1, .token 2],
    0⟩ (· == 1) [49, 43, 43, 49] [⟨2, 1⟩, ⟨3, 1⟩, ⟨3, 1⟩, ⟨2, 1⟩]

example : ∃ s', Parser.parseExpr failEnv 10 0 failEnv.startPos .new = .ok none s' ∧ s'.events = [] ∧
    s'.prev = some 4 := by
  refine ⟨_, rfl, ?_, ?_⟩ <;> decide +kernel

/-- C24 does not extend to the type of the previous node, which `prev_is` asks for: after a rule
has failed it is that of a node that is not in the output. -/
theorem C24_previous_node_leaks :
    ∃ env n e pos s s', Parser.parseExpr env n e pos s = .ok none s' ∧ s.prev = none ∧
      s'.events = [] ∧ s'.prev ≠ none := by
  refine ⟨failEnv, 10, 0, failEnv.startPos, .new, _, rfl, ?_, ?_, ?_⟩ <;> decide +kernel

/-! ## C25 lookahead -/

/-- C25. In lookahead mode no expression changes the events; and `parse_expr_pred`, which switches to
that mode, does not change them either and restores the mode. -/
theorem C25_lookahead_no_output (env : Env) (hc : env.cache = none) (n e : Nat) (pos : Pos)
    (s s' : PState) (r : Option Pos) :
    (s.predicate = true → Parser.parseExpr env n e pos s = .ok r s' → s'.events = s.events) ∧
    (Parser.parseExprPred (Parser.parseExpr env n) e pos s = .ok r s' →
      s'.events = s.events ∧ s'.predicate = s.predicate) := by
  constructor
  · intro hp h
    obtain ⟨h1, h2⟩ := Parser.parseExpr_reads hc _ _ _ _ _ h
    cases r with
    | none => exact (h1 rfl).pred hp
    | some p =>
      obtain ⟨_, I, _, ha⟩ := h2 p rfl
      exact ha.pred hp
  · intro h
    obtain ⟨ha, _⟩ := Parser.parseExprPred_adv (Parser.parseExpr_reads hc) h
    exact ⟨by have := ha.events; simpa [Parser.app] using this, ha.predicate⟩

example : ∃ s', Parser.parseExprPred (Parser.parseExpr failEnv 10) 1 failEnv.startPos .new =
    .ok (some ⟨2, 4⟩) s' ∧ s'.events = [] := by
  refine ⟨_, rfl, ?_⟩
  decide +kernel

/-- C25 needs the hypothesis on the cache: a fragment taken from the reparse cache in lookahead mode
is added to the output. The grammar is `file = !x`, `x = cached(token)`. -/
theorem C25_cache_counterexample :
    ∃ env n e pos s s' p, s.predicate = true ∧ s.events = [] ∧
      Parser.parseExpr env n e pos s = .ok (some p) s' ∧ s'.events ≠ [] := by
  refine ⟨Env.new (some ([((0, 1), (0, 1, 1))], [.token 2 1]))
    ⟨[4, 2], [.cached 1, .token 1], 0⟩ (· == 1) [49] [⟨2, 1⟩], 3, 0, ⟨0, 1⟩,
    { PState.new with predicate := true }, _, ⟨1, 1⟩, rfl, rfl, rfl, ?_⟩
  decide +kernel

/-! ## C26 tokens are accounted for -/

/-- C26. When an expression succeeds it moves forward and stays in the layer. The events it appends
are properly nested; they record as many tokens as were consumed, and the records are for exactly
those tokens, one after the other. -/
theorem C26_tokens_accounted (env : Env) (hc : env.cache = none) (n e : Nat) (pos p : Pos)
    (s s' : PState) (hp : s.predicate = false)
    (h : Parser.parseExpr env n e pos s = .ok (some p) s') :
    p.stop = pos.stop ∧ pos.cur ≤ p.cur ∧ (pos.cur ≤ pos.stop → p.cur ≤ p.stop) ∧
    ∃ es, s'.events = s.events ++ es ∧ Nested es ∧ tokenCount es = p.cur - pos.cur ∧
      CoversTokens env pos.cur p.cur (tokenEvents es) := by
  obtain ⟨hm, I, hI, ha⟩ := (Parser.parseExpr_reads hc _ _ _ _ _ h).2 p rfl
  have ht := hI.expr_toks
  refine ⟨hm.stop, by omega, fun hle => ?_, I.encode, ha.not_pred hp, Items.nested_encode I, ?_,
    hI.covers⟩
  · rw [hm.stop]; exact hm.le hle
  · rw [Items.tokenCount_encode]; omega

example : ∃ s', Parser.parseExpr sumEnv 12 1 ⟨0, 6⟩ .new = .ok (some ⟨5, 6⟩) s' ∧
    s'.events = ((sumEvents.drop 1).take 15) := by
  refine ⟨_, rfl, ?_⟩
  decide +kernel

/-! ## C27 a finished parse -/

/-- C27. A finished parse is one node of the type of the start rule (of some type of the grammar, if
the start rule may be replaced). Inside, the records are for all significant tokens, one after the
other. The body of the start rule reads the tokens up to some `k`; if `k` is not the end, the rest is
in one ERROR node, the last child. -/
theorem C27_parse_covers_tokens (env : Env) (hc : env.cache = none) (n ty body : Nat) (b : Bool)
    (hs : env.grammar.rules[env.grammar.startRule]? = some (.pub ty body b)) (es : List Event)
    (ticks : Nat) (h : synParse env n = .ok (es, ticks)) :
    ∃ t inner, es = .start t none :: (inner ++ [.fin]) ∧ Nested inner ∧
      (env.grammar.nodeTypes[ty]? = some t ∨ b = true ∧ t ∈ env.grammar.nodeTypes) ∧
      CoversTokens env 0 env.nonWs.length (tokenEvents inner) ∧
      ∃ k a z, k ≤ env.nonWs.length ∧ inner = a ++ z ∧ Nested a ∧
        CoversTokens env 0 k (tokenEvents a) ∧
        (k = env.nonWs.length ∧ z = [] ∨
          ∃ ts, k < env.nonWs.length ∧ z = .start ERROR none :: (ts ++ [.fin]) ∧
            ts = tokenEvents ts) := by
  obtain ⟨t, I, k, rfl, ht, J, hJ, hI⟩ := Parser.synParse_reads hc hs h
  have skipped : ∀ {args i j S}, Derives env args .skipped i j S →
      S.encode = tokenEvents S.encode := by
    intro args i j S h
    generalize hg : Goal.skipped = g at h
    induction h <;> cases hg
    · rfl
    · rename_i ih
      have := ih rfl
      simp only [Items.encode, tokenEvents, List.filter_cons_of_pos] at this ⊢
      exact congrArg _ this
  refine ⟨t, I.encode, by simp [Items.encode], Items.nested_encode I, ht, ?_, ?_⟩
  · rcases hI with ⟨rfl, rfl⟩ | ⟨S, _, hS, rfl⟩
    · exact hJ.covers
    · have := hJ.covers.append hS.covers
      simpa [Items.encode_append, Items.encode, tokenEvents] using this
  · rcases hI with ⟨rfl, rfl⟩ | ⟨S, hk, hS, rfl⟩
    · exact ⟨_, I.encode, [], Nat.le_refl _, by simp, Items.nested_encode I, hJ.covers,
        Or.inl ⟨rfl, rfl⟩⟩
    · exact ⟨k, J.encode, _, by omega, Items.encode_append _ _, Items.nested_encode J, hJ.covers,
        Or.inr ⟨S.encode, hk, by simp [Items.encode], skipped hS⟩⟩

example : sumEnv.cache = none ∧ sumEnv.grammar.rules[sumEnv.grammar.startRule]? = some (.pub 0 1 false)
    ∧ synParse sumEnv 12 = .ok (sumEvents, 11) := ⟨rfl, rfl, sumEnv_parse⟩

/-- C53. What a finished parse produces follows the grammar: the tree is a reading of the start rule
in the sense of `Spec.Derives` (alternatives, sequences, repetitions and so on, without the order of
choice), up to a trailing ERROR node for what is left over. -/
theorem C53_parse_follows_grammar (env : Env) (hc : env.cache = none) (n ty body : Nat) (b : Bool)
    (hs : env.grammar.rules[env.grammar.startRule]? = some (.pub ty body b)) (es : List Event)
    (ticks : Nat) (h : synParse env n = .ok (es, ticks)) :
    ∃ t I k J, es = (Items.node t I .nil).encode ∧
      Derives env (List.replicate 16 none) (.expr body) 0 k J ∧
      (k = env.nonWs.length ∧ I = J ∨
        ∃ S, k < env.nonWs.length ∧
          Derives env (List.replicate 16 none) .skipped k env.nonWs.length S ∧
          I = J.append (.node ERROR S .nil)) := by
  obtain ⟨t, I, k, h1, _, J, h2, h3⟩ := Parser.synParse_reads hc hs h
  exact ⟨t, I, k, J, h1, h2, h3⟩

example : ∃ t I, sumEvents = (Items.node t I .nil).encode ∧ I ≠ .nil :=
  ⟨4, .link 6 (.tok 2 1 .nil) .nil (.link 5 (.tok 3 1 (.node 6 (.tok 2 1 .nil) .nil)) .nil
    (.node 5 (.tok 3 1 (.node 6 (.tok 2 1 .nil) .nil)) (.node 0 (.tok 2 1 .nil) .nil))),
    by decide, by decide⟩

/-! ## C28 re-nesting -/

/-- C28. Re-nesting the events of a sequence of items, where each linked node is followed by its
parent, terminates and moves each linked node and what is between it and its parent to the beginning
of the parent (`Spec.Items.resolve`). -/
theorem C28_reshuffle_resolves (I : Items) (h : I.WF) :
    reshuffle I.encode = .ok I.resolve ∧ Nested I.resolve ∧
      tokenEvents I.resolve = tokenEvents I.encode := by
  have := reshuffle_encode I h
  exact ⟨this, nested_resolve I, reshuffleFrom_tokens rfl (by simp) this⟩

/-- The items of the expression of `sumText`. -/
def sumItems : Items :=
  .node 4 (.link 6 (.tok 2 1 .nil) .nil (.link 5 (.tok 3 1 (.node 6 (.tok 2 1 .nil) .nil)) .nil
    (.node 5 (.tok 3 1 (.node 6 (.tok 2 1 .nil) .nil)) (.node 0 (.tok 2 1 .nil) .nil)))) .nil

example : sumItems.WF ∧ sumItems.encode = sumEvents ∧ sumItems.resolve =
    [.start 4 none, .start 5 none, .start 5 none, .start 6 none, .token 2 1, .fin,
      .token 3 1, .start 6 none, .token 2 1, .fin, .fin,
      .token 3 1, .start 6 none, .token 2 1, .fin, .fin, .start 0 none, .token 2 1, .fin, .fin] := by
  refine ⟨by simp [sumItems, Items.WF, Items.HeadNode], by decide, by decide⟩

/-- C28. For the events of a finished parse this applies if in all readings of the grammar the
second part of an `inject` begins with a node and operands of infix operators are not empty. -/
theorem C28_reshuffle_parse_partial (env : Env) (hc : env.cache = none) (hl : LinksOk env) (n ty body : Nat)
    (b : Bool) (hs : env.grammar.rules[env.grammar.startRule]? = some (.pub ty body b))
    (es : List Event) (ticks : Nat) (h : synParse env n = .ok (es, ticks)) :
    ∃ I : Items, I.WF ∧ es = I.encode ∧ reshuffle es = .ok I.resolve ∧ Nested I.resolve ∧
      Complete I.resolve := by
  obtain ⟨t, I, k, rfl, _, J, hJ, hI⟩ := Parser.synParse_reads hc hs h
  have hw : (Items.node t I .nil).WF := by
    rcases hI with ⟨_, rfl⟩ | ⟨S, _, hS, rfl⟩
    · exact ⟨hJ.wf hl (Parser.passed_new _), trivial⟩
    · exact ⟨(hJ.wf hl (Parser.passed_new _)).append ⟨hS.wf hl (Parser.passed_new _), trivial⟩, trivial⟩
  refine ⟨_, hw, rfl, reshuffle_encode _ hw, nested_resolve _, t, none, I.resolve ++ [.fin], ?_, ?_⟩
  · simp [Items.resolve, Items.resolveWith]
  · have h1 : ∀ (a : List Event) (d k : Nat), nest d a = some k → Closes (k + 1) [.fin] →
        Closes (d + 1) (a ++ [.fin]) := by
      intro a
      induction a with
      | nil => intro d k h1 h2; simp only [nest, Option.some.injEq] at h1; subst h1; exact h2
      | cons e a ih =>
        intro d k h1 h2
        cases e with
        | start ty fp => exact ih (d + 1) k h1 h2
        | token ty n => simp only [nest] at h1; simp only [List.cons_append, Closes]; exact ih d k h1 h2
        | cached key n => simp only [nest] at h1; simp only [List.cons_append, Closes]; exact ih d k h1 h2
        | fin =>
          cases d with
          | zero => simp [nest] at h1
          | succ d => exact ih d k h1 h2
    exact h1 _ 0 0 (nested_resolve I) rfl

/-- The hypothesis on links holds for the example: operands are literals. -/
theorem sumEnv_links : LinksOk sumEnv := by
  constructor
  · intro pre body h
    simp [sumEnv, Env.new, sumGrammar] at h
  · intro table a h _ ha args i j I _ hI
    have : table = ⟨[2], [], [⟨2, 4, 1, true⟩]⟩ := by
      simpa [sumEnv, Env.new, sumGrammar] using h
    subst this
    simp only [List.mem_singleton] at ha
    subst ha
    obtain ⟨t, J, rfl, _⟩ := hI.pub_inv (ty := 1) (body := 3) (b := false) rfl
    simp

example : LinksOk sumEnv ∧ synParse sumEnv 12 = .ok (sumEvents, 11) := ⟨sumEnv_links, sumEnv_parse⟩

/-- C28. Whenever re-nesting completes, whatever the events, it keeps all tokens in order. -/
theorem C28_reshuffle_keeps_tokens (es plain : List Event) (h : reshuffle es = .ok plain) :
    tokenEvents plain = tokenEvents es := reshuffleFrom_tokens rfl (by simp) h

example : ∃ plain, reshuffle sumEvents = .ok plain ∧ tokenEvents plain = List.map (Event.token · 1)
    [2, 3, 2, 3, 2, 2] := by
  refine ⟨_, rfl, ?_⟩
  decide +kernel

/-- An operator expression whose operand may be missing, on an input that begins with an
operator. -/
def noOperandEnv : Env :=
  Env.new none ⟨[4, 5, 2, 3], [.pub 0 1 false, .pratt ⟨[2], [], [⟨1, 4, 1, false⟩]⟩, .opt 3, .token 2,
    .token 3], 0⟩ (· == 1) [43] [⟨3, 1⟩]

/-- C28 as stated is false: for an operand that produced no events, the parser links the operator
node to itself, and following the links does not terminate. -/
theorem C28_counterexample :
    ∃ env n es ticks, env.cache = none ∧ synParse env n = .ok (es, ticks) ∧
      (∃ ty, es[1]? = some (.start ty (some 0))) ∧ ∀ fuel, links es fuel 1 = .timeout := by
  refine ⟨noOperandEnv, 12, [.start 4 none, .start 5 (some 0), .token 3 1, .fin, .fin], 6, rfl, ?_,
    ⟨5, rfl⟩, ?_⟩
  · decide +kernel
  · intro fuel
    induction fuel with
    | zero => rfl
    | succ fuel ih => simp [links, ih, bind, Result.bind]

/-! ## C29 conversion -/

/-- C29. If the re-nested events are complete and the tokens fit them, conversion does not panic,
gives a well bracketed sequence of calls with one outermost node, and its leaves are, in order, all
the tokens: a leaf for each group of tokens recorded by an event and one for each whitespace token.
In particular the length of the leaves is that of the tokens. -/
theorem C29_convert_lossless (cv : Convertor) (hb : BoundedBinder cv.binder) (text : List Nat)
    (tokens : List Token) (events plain : List Event) (hr : reshuffle events = .ok plain)
    (hc : Complete plain) (hf : Fits cv.isWs (counts plain) tokens)
    (hlen : (tokens.map (·.len)).sum ≤ text.length)
    (hroot : ∀ ty fp, plain.head? = some (.start ty fp) → ∀ spaces,
      cv.binder ty spaces false = spaces.length) :
    ∃ ops, cv.convert text tokens events = .ok ops ∧ SingleRoot ops ∧
      Places cv.isWs plain tokens ops ∧ leafLen ops = (tokens.map (·.len)).sum := by
  obtain ⟨ty, fp, rest, rfl, hcl⟩ := hc
  obtain ⟨c, rfl⟩ := closes_last hcl
  have hf' : Fits cv.isWs (counts c) tokens := by simpa [counts] using hf
  obtain ⟨kids, h1, h2⟩ := convert_ok cv hb (hroot ty fp rfl) hlen hr hcl hf'
  exact ⟨_, h1, forest_singleRoot ty kids, h2, h2.leafLen⟩

def sumPlain : List Event :=
  [.start 4 none, .start 5 none, .start 5 none, .start 6 none, .token 2 1, .fin,
    .token 3 1, .start 6 none, .token 2 1, .fin, .fin,
    .token 3 1, .start 6 none, .token 2 1, .fin, .fin, .start 0 none, .token 2 1, .fin, .fin]

theorem sumPlain_fits : Fits (· == 1) (counts sumPlain) sumTokens :=
  ⟨[⟨1, 1⟩], [⟨2, 1⟩], _, rfl, by decide, rfl, by decide,
    [], [⟨3, 1⟩], _, rfl, by decide, rfl, by decide,
    [], [⟨2, 2⟩], _, rfl, by decide, rfl, by decide,
    [⟨1, 1⟩], [⟨3, 1⟩], _, rfl, by decide, rfl, by decide,
    [⟨1, 1⟩], [⟨2, 1⟩], _, rfl, by decide, rfl, by decide,
    [⟨1, 1⟩], [⟨2, 1⟩], [], rfl, by decide, rfl, by decide, by simp [Fits]⟩

example : BoundedBinder (sumDefinition.convertor 4).binder ∧ reshuffle sumEvents = .ok sumPlain ∧
    Complete sumPlain ∧ Fits (· == 1) (counts sumPlain) sumTokens ∧
    (sumTokens.map (·.len)).sum ≤ sumText.length := by
  refine ⟨?_, by decide +kernel, ⟨4, none, _, rfl, by simp [Closes]⟩, sumPlain_fits, by decide⟩
  intro ty sp l
  simp only [Definition.convertor, sumDefinition]
  split <;> simp

/-! ## C30 whitespace -/

/-- C30. If the binder asks for no whitespace at nodes of type `ty`, then no node of that type, except
possibly the outermost one, begins or ends with whitespace. -/
theorem C30_no_space_at_ends (cv : Convertor) (text : List Nat) (tokens : List Token)
    (events : List Event) (ops : List BuilderOp) (h : cv.convert text tokens events = .ok ops)
    (hty : ∀ ty k, .token ty k ∈ events → cv.isWs ty = false) (ty : NodeType)
    (hz : ∀ spaces leading, cv.binder ty spaces leading = 0) (pre inner post : List BuilderOp)
    (hops : ops = pre ++ (.start ty :: (inner ++ [.finish])) ++ post) (hpre : pre ≠ [])
    (hnode : SingleRoot (.start ty :: (inner ++ [.finish]))) :
    (∀ o, inner.head? = some o → IsSpace cv.isWs o = false) ∧
    (∀ o, inner.getLast? = some o → IsSpace cv.isWs o = false) := by
  obtain ⟨rty, f, rfl, hf⟩ := convert_trimmed hty h
  obtain ⟨ty', k, hk⟩ := singleRoot_forest hnode
  simp only [Forest.ops, List.cons.injEq, BuilderOp.start.injEq] at hk
  obtain ⟨rfl, hk⟩ := hk
  have hik : inner = k.ops := List.append_cancel_right hk
  subst hik
  cases pre with
  | nil => exact absurd rfl hpre
  | cons p pre =>
    simp only [Forest.ops, List.cons_append, List.append_assoc, List.cons.injEq] at hops
    obtain ⟨rfl, hops⟩ := hops
    rcases Forest.All.occ f hf [.finish] pre post ty k (by simpa using hops) with h1 | ⟨p', rfl, h2⟩
    · exact h1 hz
    · cases p' with
      | nil => simp at h2
      | cons x p' => simp at h2

/-- The calls for `sumText`. -/
def sumOps : List BuilderOp :=
  [.start 4, .leaf 1 1, .start 5, .start 5, .start 6, .leaf 2 1, .finish, .leaf 3 1, .start 6, .leaf 2 2,
    .finish, .finish, .leaf 1 1, .leaf 3 1, .leaf 1 1, .start 6, .leaf 2 1, .finish, .finish, .leaf 1 1,
    .start 0, .leaf 2 1, .finish, .finish]

theorem sumOps_convert : (sumDefinition.convertor 4).convert sumText sumTokens sumEvents = .ok sumOps := by
  decide +kernel

example : (sumDefinition.convertor 4).convert sumText sumTokens sumEvents = .ok sumOps ∧
    (∀ sp l, (sumDefinition.convertor 4).binder 5 sp l = 0) ∧
    ∃ post, sumOps = (sumOps.take 3) ++ (.start 5 :: ([.start 6, .leaf 2 1, .finish, .leaf 3 1, .start 6,
      .leaf 2 2, .finish] ++ [.finish])) ++ post ∧
    SingleRoot (.start 5 :: ([.start 6, .leaf 2 1, .finish, .leaf 3 1, .start 6,
      .leaf 2 2, .finish] ++ [.finish])) :=
  ⟨sumOps_convert, fun _ _ => rfl, _, rfl,
    forest_singleRoot 5 (.node 6 (.leaf 2 1 .nil) (.leaf 3 1 (.node 6 (.leaf 2 2 .nil) .nil)))⟩

/-- C30, whitespace at the ends of the file. Leading whitespace is at the beginning of the root. The
same holds for trailing whitespace and the end of the root if no node begins after the last token;
without this condition it is false, see the counterexample. -/
theorem C30_file_ends_partial (cv : Convertor) (hb : BoundedBinder cv.binder) (text : List Nat)
    (tokens : List Token) (events c : List Event) (ty : NodeType) (fp : Option Nat)
    (hr : reshuffle events = .ok (.start ty fp :: (c ++ [.fin]))) (hc : Closes 1 (c ++ [.fin]))
    (hf : Fits cv.isWs (counts c) tokens) (hpos : ∀ k ∈ counts c, 0 < k)
    (hlen : (tokens.map (·.len)).sum ≤ text.length)
    (hroot : ∀ spaces, cv.binder ty spaces false = spaces.length)
    (hz : ∀ ty fp, .start ty fp ∈ c → ∀ spaces leading, cv.binder ty spaces leading = 0)
    (hlast : EndsWithToken c) :
    ∃ lead mid trail ops, tokens = lead ++ mid ++ trail ∧ (∀ t ∈ lead ++ trail, cv.isWs t.ty = true) ∧
      (∃ t, mid.head? = some t ∧ cv.isWs t.ty = false) ∧
      (∃ t, mid.getLast? = some t ∧ cv.isWs t.ty = false) ∧
      cv.convert text tokens events = .ok (.start ty :: ((lead.map fun t => .leaf t.ty t.len) ++ ops ++
        (trail.map fun t => .leaf t.ty t.len) ++ [.finish])) := by
  obtain ⟨o, x, y, trail, h1, h2, h3, h5⟩ := convert_file_ends cv hb hroot hlen hr hc hf hpos hz hlast
  refine ⟨x.takeWhile fun t => cv.isWs t.ty, (x.dropWhile fun t => cv.isWs t.ty) ++ [y], trail, o, ?_, ?_,
    ?_, ⟨y, by simp, h2⟩, h5⟩
  · rw [h1]
    conv => lhs; rw [← List.takeWhile_append_dropWhile (p := fun t => cv.isWs t.ty) (l := x)]
    simp only [List.append_assoc, List.cons_append, List.nil_append]
  · intro t ht
    rcases List.mem_append.1 ht with h | h
    · exact List.all_eq_true.1 (List.all_takeWhile (l := x) (p := fun t => cv.isWs t.ty)) t h
    · exact h3 t h
  · cases hx : x.dropWhile fun t => cv.isWs t.ty with
    | nil => exact ⟨y, rfl, h2⟩
    | cons z r =>
      refine ⟨z, rfl, ?_⟩
      have := List.head?_dropWhile_not (fun t : Token => cv.isWs t.ty) x
      rw [hx] at this
      simpa using this

/-- C30 fails for trailing whitespace without the condition: after a node with no tokens at the end,
such as the ERROR node of an unfinished rule, trailing whitespace is inside of the node around it,
though the binder asks for none. -/
theorem C30_counterexample :
    ∃ (cv : Convertor) (text : List Nat) (tokens : List Token) (events : List Event),
      (∀ ty spaces leading, ty ≠ 4 → cv.binder ty spaces leading = 0) ∧
      (∀ spaces, cv.binder 4 spaces false = spaces.length) ∧ Complete events ∧
      tokens.getLast? = some ⟨1, 1⟩ ∧ cv.isWs 1 = true ∧
      cv.convert text tokens events = .ok [.start 4, .start 5, .leaf 2 1, .leaf 1 1, .start 0, .finish,
        .finish, .finish] := by
  refine ⟨sumDefinition.convertor 4, [49, 32], [⟨2, 1⟩, ⟨1, 1⟩],
    [.start 4 none, .start 5 none, .token 2 1, .start 0 none, .fin, .fin, .fin], ?_, ?_, ?_, rfl, rfl, ?_⟩
  · intro ty sp l h
    simp [Definition.convertor, sumDefinition, h]
  · intro sp; rfl
  · exact ⟨4, none, _, rfl, by simp [Closes]⟩
  · decide +kernel

example : ∃ c, reshuffle sumEvents = .ok (.start 4 none :: (c ++ [.fin])) ∧ Closes 1 (c ++ [.fin]) ∧
    Fits (· == 1) (counts c) sumTokens ∧ (∀ k ∈ counts c, 0 < k) ∧ EndsWithToken c ∧
    (∀ ty fp, .start ty fp ∈ c → ∀ sp l, (sumDefinition.convertor 4).binder ty sp l = 0) := by
  refine ⟨(sumPlain.drop 1).dropLast, by decide +kernel, by simp [sumPlain, Closes], sumPlain_fits,
    by decide, ?_, ?_⟩
  · simp [sumPlain, EndsWithToken]
  · intro ty fp h sp l
    have : ty ≠ 4 := by
      rintro rfl
      simp [sumPlain] at h
    simp [Definition.convertor, sumDefinition, this]

/-! ## C31 end to end -/

/-- C31. Whenever parsing a text completes, the file is a consistent tree for the whole text, whose
leaves spell the text. The root has the type of the start rule. -/
theorem C31_parse_lossless (d : Definition) (hp : Progress d.lexer) (ty body : Nat)
    (hstart : d.rules[0]? = some (.pub ty body false)) (hb : BoundedBinder d.binder)
    (hs : SpacelessStrings d) (n : Nat) (text : List Nat) (file : File Nat)
    (data : Definition.IncrementalData) (h : d.parse n text = .ok (file, data)) :
    ConsistentFile file ∧ file.text = text ∧ file.textOf 0 = some text ∧
      (∃ l leaves ts, file.subtree 0 = some l ∧
        leaves = l.filter (fun m => file.children m == some []) ∧
        leaves.mapM file.textOf = some ts ∧ ts.flatten = text) ∧
      file.ty 0 = d.nodeTypes[ty]? := by
  obtain ⟨ts, h1, h2, h3, h4⟩ := C10_lex_tiles d.lexer hp text
  simp only [Definition.parse, h1, Result.ofOption, bind, Result.bind] at h
  cases h5 : d.parseTokens n none text ts with
  | panic => rw [h5] at h; cases h
  | timeout => rw [h5] at h; cases h
  | ok r =>
    rw [h5] at h
    obtain ⟨ops, events⟩ := r
    obtain ⟨t, kids, plain, h6, rfl, _, _, _, h7⟩ :=
      parseTokens_ok hstart hb h4 h3 (plainStrings_of_lexer hs h2 none) h5
    obtain ⟨f, h8, h9, h10, h11⟩ := C14_build_consistent _ (forest_singleRoot t kids) text
      (by rw [h7.leafLen, h3])
    simp only [h8, pure, Result.ok.injEq, Prod.mk.injEq] at h
    obtain ⟨rfl, rfl⟩ := h
    obtain ⟨_, h12, h13⟩ := C16_leaves_spell_text f h10
    have h0 : IsNode f 0 := by
      obtain ⟨_, h0, _⟩ := h10.nodes.root
      exact (List.getElem?_eq_some_iff.1 h0).1
    obtain ⟨l, leaves, tx, h14, h15, h16, h17⟩ := h12 0 h0
    refine ⟨h10, h9, by rw [h13, h9], ⟨l, leaves, tx, h14, h15, h16, ?_⟩, ?_⟩
    · rw [h13, h9] at h17
      exact (Option.some.inj h17).symm
    · rw [h6]
      simp only [Forest.ops] at h11
      generalize hops : BuilderOp.start t :: (kids.ops ++ [.finish]) = ops at h11
      cases h11 with
      | leaf => cases hops
      | node h18 =>
        simp only [List.cons.injEq, BuilderOp.start.injEq] at hops
        rw [h18, hops.1]

theorem sumDefinition_strings : SpacelessStrings sumDefinition := by
  intro ty w h
  simp [sumDefinition, sumGrammar] at h

example : ∃ file data, sumDefinition.parse 12 sumText = .ok (file, data) ∧ file.nodes.length = 17 := by
  refine ⟨_, _, rfl, ?_⟩
  decide +kernel

/-- A keyword given as a string that contains a space. -/
def gapDefinition : Definition where
  nodeTypes := [4, 2]
  rules := [.pub 0 1 false, .contextualToken 1 [49, 32, 49]]
  binder _ _ _ := 0
  lexer := sumLexer
  isWs ty := ty == 1

/-- C31 needs the condition on strings. Here the string `1 1` is found in `1 12`; its length is
taken to be made up by the tokens `1` and `12`, but the tokens `1` and the space are put into the
tree. -/
theorem C31_string_counterexample :
    ∃ (d : Definition) (n : Nat) (text : List Nat) (file : File Nat) (data : Definition.IncrementalData),
      Progress d.lexer ∧ d.rules[0]? = some (.pub 0 1 false) ∧
      BoundedBinder d.binder ∧ d.parse n text = .ok (file, data) ∧ ¬ ConsistentFile file := by
  refine ⟨gapDefinition, 12, [49, 32, 49, 50], _, _, sumLexer_progress, rfl, fun _ _ _ => Nat.zero_le _,
    rfl, ?_⟩
  intro h
  have := h.covers
  revert this
  decide +kernel

/-- A start rule with alternatives of different types for the root: ` 1` or `1 +`. -/
def replacedDefinition : Definition where
  nodeTypes := [4, 5, 2, 3]
  rules := [.pub 0 1 true, .and [2, 3] none, .token 2, .pubReplace 1 4, .token 3]
  binder _ _ _ := 0
  lexer := sumLexer
  isWs ty := ty == 1

/-- C31 needs a start rule that is not replaced: trailing whitespace is only added to nodes of the
type of the start rule. -/
theorem C31_replaced_counterexample :
    ∃ (d : Definition) (n : Nat) (text : List Nat) (file : File Nat) (data : Definition.IncrementalData),
      Progress d.lexer ∧ d.rules[0]? = some (.pub 0 1 true) ∧
      BoundedBinder d.binder ∧ SpacelessStrings d ∧ d.parse n text = .ok (file, data) ∧
      ¬ ConsistentFile file := by
  refine ⟨replacedDefinition, 12, [49, 43, 32], _, _, sumLexer_progress, rfl,
    fun _ _ _ => Nat.zero_le _, ?_, rfl, ?_⟩
  · intro ty w h
    simp [replacedDefinition] at h
  · intro h
    have := h.covers
    revert this
    decide +kernel

end Fall
