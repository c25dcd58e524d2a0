import Verif.Spec.Layout
import Verif.Lemmas.JsonFile

/-!
The parser only sees the tokens that are not whitespace.
-/

namespace Fall

open Spec

/-- Two inputs that cannot be told apart. -/
structure Indistinct (env env' : Env) : Prop where
  cache : env.cache = none
  cache' : env'.cache = none
  grammar : env'.grammar = env.grammar
  length : env'.nonWs.length = env.nonWs.length
  types : ∀ i, sigTy env' i = sigTy env i
  words : ∀ ty w, .contextualToken ty w ∈ env.grammar.rules → ∀ pos,
    Parser.bumpByText env' pos w ty = Parser.bumpByText env pos w ty

namespace Indistinct

open Parser

variable {env env' : Env} (h : Indistinct env env')
include h

theorem nodeType : nodeType env' = nodeType env := by
  funext i
  simp only [Parser.nodeType, h.grammar]

theorem start : start env' = start env := by
  funext i
  simp only [Parser.start, h.nodeType]

theorem replace : replace env' = replace env := by
  funext m i
  simp only [Parser.replace, h.nodeType]

theorem bump : bump env' = bump env := by
  funext pos s
  have e := h.types pos.cur
  simp only [sigTy, sigToken] at e
  unfold Parser.bump tokenAt
  split
  · rfl
  · show P.bind _ _ s = P.bind _ _ s
    unfold P.bind
    generalize ((do let x ← env.nonWs[pos.cur]?; env.tokens[x.2]?) : Option Token) = a at e ⊢
    generalize ((do let x ← env'.nonWs[pos.cur]?; env'.tokens[x.2]?) : Option Token) = b at e ⊢
    cases a with
    | none => cases b with
      | none => rfl
      | some b => cases e
    | some a => cases b with
      | none => cases e
      | some b =>
        simp only [Option.map_some, Option.some.injEq] at e
        show (Parser.token b.ty 1 >>= fun _ => pure (some (b.ty, pos.next))) s = _
        rw [e]
        rfl

theorem bumpAll : bumpAll env' = bumpAll env := by
  have : ∀ n, bumpAllN env' n = bumpAllN env n := by
    intro n
    induction n with
    | zero => rfl
    | succ n ih =>
      funext pos
      simp only [bumpAllN, h.bump, ih]
  funext pos
  simp only [Parser.bumpAll, h.length, this]

theorem setArgs : setArgs env' = setArgs env := by
  have hr : resolveArg env' = resolveArg env := by
    funext a
    simp only [resolveArg, h.grammar]
  funext args
  induction args with
  | nil => rfl
  | cons a args ih => simp only [Parser.setArgs, hr, ih]

theorem prevIs : parsePrevIs env' = parsePrevIs env := by
  have : prevIsLoop env' = prevIsLoop env := by
    funext p pos tys
    induction tys with
    | nil => rfl
    | cons t tys ih => simp only [prevIsLoop, h.nodeType, ih]
  funext pos tys
  simp only [parsePrevIs, this]

theorem withSkip {rec : Rec} {a b : Nat} : withSkipLoop env' rec a b = withSkipLoop env rec a b := by
  funext n
  induction n with
  | zero => rfl
  | succ n ih =>
    funext sk pos
    simp only [withSkipLoop, h.bump, ih]

theorem infixes {rec : Rec} {go : Pos → Nat → P (Option Pos)} : prattInfixes env' rec go = prattInfixes env rec go := by
  funext lhs pos ixs
  induction ixs with
  | nil => rfl
  | cons ix ixs ih => simp only [prattInfixes, h.start, h.nodeType, ih]

theorem prefixes {rec : Rec} {go : Pos → Nat → P (Option Pos)} :
    prattPrefixes env' rec go = prattPrefixes env rec go := by
  funext pos pfs
  induction pfs with
  | nil => rfl
  | cons pf pfs ih => simp only [prattPrefixes, h.start, h.nodeType, ih]

theorem prattLoop {rec : Rec} {go : Pos → Nat → P (Option Pos)} {table : PrattTable} {k : Nat} :
    prattLoop env' rec go table k = prattLoop env rec go table k := by
  funext n
  induction n with
  | zero => rfl
  | succ n ih =>
    funext lhs pos
    simp only [Parser.prattLoop, h.infixes, ih]

theorem prattGo {rec : Rec} {table : PrattTable} : prattGo env' rec table = prattGo env rec table := by
  funext n
  induction n with
  | zero => rfl
  | succ n ih =>
    funext pos k
    simp only [Parser.prattGo, prattPrefix, h.prefixes, h.prattLoop, ih]

theorem inner {rec : Rec} {n e : Nat} {pos : Pos} :
    parseExprInner env' rec n e pos = parseExprInner env rec n e pos := by
  unfold parseExprInner
  rw [h.grammar]
  cases hr : env.grammar.rules[e]? with
  | none => rfl
  | some x =>
    cases x with
    | contextualToken ty w => exact h.words ty w (List.mem_of_getElem? hr) pos
    | pub ty b v =>
      show parsePub env' rec pos ty b v = parsePub env rec pos ty b v
      simp only [parsePub, applyReplacement, h.start, h.nodeType, h.replace]
    | token ty =>
      show parseToken env' pos ty = parseToken env pos ty
      simp only [parseToken, h.bump, h.nodeType]
    | withSkip a b =>
      show withSkipLoop env' rec a b n false pos = withSkipLoop env rec a b n false pos
      rw [h.withSkip]
    | any =>
      show (Parser.bump env' pos >>= _) = (Parser.bump env pos >>= _)
      rw [h.bump]
    | layer a b =>
      show parseLayer env' rec pos a b = parseLayer env rec pos a b
      simp only [parseLayer, h.bumpAll]
    | pratt t =>
      show Parser.prattGo env' rec t n pos 0 = Parser.prattGo env rec t n pos 0
      rw [h.prattGo]
    | call b args =>
      show parseCall env' rec pos b args = parseCall env rec pos b args
      simp only [parseCall, h.setArgs]
    | prevIs tys =>
      show parsePrevIs env' pos tys = parsePrevIs env pos tys
      rw [h.prevIs]
    | cached b =>
      show parseCached env' rec pos b = parseCached env rec pos b
      simp only [parseCached, cachedOrParse, getFromCache, h.cache, h.cache']
    | _ => rfl

theorem expr : parseExpr env' = parseExpr env := by
  funext n
  induction n with
  | zero => rfl
  | succ n ih =>
    funext e pos
    simp only [parseExpr, ih, h.inner]

theorem synParse (n : Nat) : synParse env' n = synParse env n := by
  have : env'.startPos = env.startPos := by simp only [Env.startPos, h.length]
  simp only [Fall.synParse, parseMain, h.expr, h.bumpAll, h.grammar, this]

end Indistinct

/-! ## Tokens of a text -/

theorem inked_entries {lexer : Lexer Nat} {isWs : NodeType → Bool} : (ts : List Token) → (text : List Nat) →
    IsLexing lexer text ts → (pre : List Token) → (before : List Nat) →
    (nonWsIndexes isWs before.length pre.length ts).length = (inked isWs text ts).length ∧
    ∀ i start k : Nat, (nonWsIndexes isWs before.length pre.length ts)[i]? = some (start, k) →
      ∃ t, (pre ++ ts)[k]? = some t ∧
        (inked isWs text ts)[i]? = some (t.ty, ((before ++ text).drop start).take t.len) ∧
        start + t.len ≤ (before ++ text).length ∧ lexer ((before ++ text).drop start) = t
  | [], text, h, pre, before => by
    refine ⟨rfl, fun i start k hi => ?_⟩
    simp [nonWsIndexes] at hi
  | t :: ts, text, h, pre, before => by
    obtain ⟨h1, h2, h3, h4⟩ := h
    have e1 : before.length + t.len = (before ++ text.take t.len).length := by simp [Nat.min_eq_left h3]
    have e2 : pre.length + 1 = (pre ++ [t]).length := by simp
    obtain ⟨i1, i2⟩ := inked_entries (lexer := lexer) (isWs := isWs) ts (text.drop t.len) h4 (pre ++ [t]) (before ++ text.take t.len)
    rw [← e1, ← e2] at i1 i2
    rw [List.append_assoc, List.append_assoc, List.take_append_drop, List.singleton_append] at i2
    unfold nonWsIndexes
    by_cases hw : isWs t.ty = true
    · have e3 : inked isWs text (t :: ts) = inked isWs (text.drop t.len) ts := by simp [inked, tokenWords, hw]
      rw [if_pos hw, e3]
      exact ⟨i1, i2⟩
    · have e3 : inked isWs text (t :: ts) = (t.ty, text.take t.len) :: inked isWs (text.drop t.len) ts := by
        simp [inked, tokenWords, hw]
      rw [if_neg hw, e3]
      refine ⟨by simp [i1], fun i start k hi => ?_⟩
      cases i with
      | succ i => exact i2 i start k hi
      | zero =>
        simp only [List.getElem?_cons_zero, Option.some.injEq, Prod.mk.injEq] at hi
        obtain ⟨rfl, rfl⟩ := hi
        exact ⟨t, by simp, by simp, by simp; omega, by simpa using h1⟩

section
variable {d : Definition} {text : List Nat} {tokens : List Token} (hl : IsLexing d.lexer text tokens)
include hl

theorem nonWs_inked :
    (Env.new none d.grammar d.isWs text tokens).nonWs.length = (inked d.isWs text tokens).length :=
  (inked_entries tokens text hl [] []).1

theorem inked_entry {i start k : Nat} (h : (Env.new none d.grammar d.isWs text tokens).nonWs[i]? = some (start, k)) :
    ∃ t, tokens[k]? = some t ∧ (inked d.isWs text tokens)[i]? = some (t.ty, (text.drop start).take t.len) ∧
      start + t.len ≤ text.length ∧ d.lexer (text.drop start) = t :=
  (inked_entries tokens text hl [] []).2 i start k h

theorem sigTy_inked (i : Nat) :
    sigTy (Env.new none d.grammar d.isWs text tokens) i = ((inked d.isWs text tokens)[i]?).map (·.1) := by
  unfold sigTy sigToken
  cases hi : (Env.new none d.grammar d.isWs text tokens).nonWs[i]? with
  | none =>
    rw [List.getElem?_eq_none_iff, nonWs_inked hl] at hi
    rw [List.getElem?_eq_none_iff.2 hi]
    rfl
  | some x =>
    obtain ⟨t, h1, h2, -⟩ := inked_entry hl (start := x.1) (k := x.2) hi
    rw [h2]
    show (tokens[x.2]?).map _ = _
    rw [h1]
    rfl

/-- Strings of the grammar are compared with the next token. -/
theorem byText_inked (hw : WholeWords d text) {ty : Nat} {w : List Nat} (hr : .contextualToken ty w ∈ d.rules)
    (pos : Pos) : Parser.bumpByText (Env.new none d.grammar d.isWs text tokens) pos w ty =
      if pos.isEmpty then pure none else
        match (inked d.isWs text tokens)[pos.cur]? with
        | none => P.panic
        | some x => if w = [] then do
              let ty ← P.lift d.nodeTypes[ty]?
              Parser.token ty 0
              pure (some pos)
            else if w = x.2 then do
              let ty ← P.lift d.nodeTypes[ty]?
              Parser.token ty 1
              pure (some pos.next)
            else pure none := by
  unfold Parser.bumpByText
  by_cases he : pos.isEmpty = true
  · rw [if_pos he, if_pos he]
  · rw [if_neg he, if_neg he]
    cases hi : (Env.new none d.grammar d.isWs text tokens).nonWs[pos.cur]? with
    | none =>
      rw [List.getElem?_eq_none_iff, nonWs_inked hl] at hi
      rw [List.getElem?_eq_none_iff.2 hi]
      rfl
    | some x =>
      obtain ⟨start, k⟩ := x
      obtain ⟨t, h1, h2, h3, h4⟩ := inked_entry hl hi
      rw [h2]
      have hdrop : (Env.new none d.grammar d.isWs text tokens).nonWs.drop pos.cur =
          (start, k) :: (Env.new none d.grammar d.isWs text tokens).nonWs.drop (pos.cur + 1) := by
        obtain ⟨hlt, hg⟩ := List.getElem?_eq_some_iff.1 hi
        rw [List.drop_eq_getElem_cons hlt, hg]
      show (if text.length < start then P.panic else if !(w.isPrefixOf (text.drop start)) then pure none else _) = _
      rw [if_neg (by omega), hdrop]
      dsimp only
      by_cases hp : w.isPrefixOf (text.drop start) = true
      · rw [if_neg (by simp [hp])]
        obtain ⟨rest, hrest⟩ := List.isPrefixOf_iff_prefix.1 hp
        have hlen : w.length ≤ t.len := by
          have := hw ty w hr rest (by rw [hrest]; exact List.drop_suffix _ _)
          rwa [hrest, h4] at this
        cases w with
        | nil => rfl
        | cons c w =>
          rw [if_neg (by simp)]
          unfold Parser.byTextLoop
          rw [if_neg (by simp), if_neg he]
          show ((P.lift tokens[k]? >>= _) >>= _) = _
          rw [h1]
          by_cases hlt : (c :: w).length < t.len
          · rw [if_neg (by
              intro e
              have := congrArg List.length e
              simp only [List.length_take, List.length_drop] at this
              omega)]
            show ((if (c :: w).length < t.len then pure none else _) >>= _) = _
            rw [if_pos hlt]
            rfl
          · have hlt' : t.len = (c :: w).length := by omega
            rw [if_pos (by rw [hlt', ← hrest]; simp)]
            show ((if (c :: w).length < t.len then pure none else _) >>= _) = _
            rw [if_neg hlt]
            unfold Parser.byTextLoop
            rw [if_pos (by omega)]
            rfl
      · rw [if_pos (by simp only [Bool.not_eq_true] at hp; rw [hp]; rfl)]
        have hp' : ¬ w <+: text.drop start := fun h => hp (List.isPrefixOf_iff_prefix.2 h)
        rw [if_neg (by rintro rfl; exact hp' (List.nil_prefix)), if_neg (by rintro rfl; exact hp' (List.take_prefix _ _))]

end

/-- Texts with the same tokens but for whitespace are the same to the parser. -/
theorem indistinct_inked {d : Definition} {text text' : List Nat} {tokens tokens' : List Token}
    (hl : IsLexing d.lexer text tokens) (hl' : IsLexing d.lexer text' tokens') (hw : WholeWords d text)
    (hw' : WholeWords d text') (h : inked d.isWs text tokens = inked d.isWs text' tokens') :
    Indistinct (Env.new none d.grammar d.isWs text tokens) (Env.new none d.grammar d.isWs text' tokens') where
  cache := rfl
  cache' := rfl
  grammar := rfl
  length := by rw [nonWs_inked hl, nonWs_inked hl', h]
  types i := by rw [sigTy_inked hl, sigTy_inked hl', h]
  words ty w hr pos := by rw [byText_inked hl hw hr, byText_inked hl' hw' hr, h]

/-- Without strings in the grammar, the types are enough. -/
theorem indistinct_types {d : Definition} {text text' : List Nat} {tokens tokens' : List Token}
    (hl : IsLexing d.lexer text tokens) (hl' : IsLexing d.lexer text' tokens')
    (hn : ∀ ty w, .contextualToken ty w ∉ d.rules)
    (h : (inked d.isWs text tokens).map (·.1) = (inked d.isWs text' tokens').map (·.1)) :
    Indistinct (Env.new none d.grammar d.isWs text tokens) (Env.new none d.grammar d.isWs text' tokens') where
  cache := rfl
  cache' := rfl
  grammar := rfl
  length := by
    rw [nonWs_inked hl, nonWs_inked hl']
    simpa using (congrArg List.length h).symm
  types i := by rw [sigTy_inked hl, sigTy_inked hl', ← List.getElem?_map, ← List.getElem?_map, h]
  words ty w hr := absurd hr (hn ty w)

/-! ## Trees -/

/-- The outline of the tree is in the events. -/
theorem inkedOps_places {isWs : NodeType → Bool} {es : List Event} {ts : List Token} {ops : List BuilderOp}
    (h : Places isWs es ts ops) : inkedOps isWs ops = es.flatMap fun
      | .start ty _ => [.start ty]
      | .fin => [.finish]
      | .token ty _ => if isWs ty then [] else [.leaf ty 0]
      | .cached _ _ => [] := by
  induction h with
  | nil => rfl
  | space hw _ ih => simp only [inkedOps, List.flatMap_cons, hw, if_true, List.nil_append] at ih ⊢; exact ih
  | _ => simp_all [inkedOps]

end Fall
