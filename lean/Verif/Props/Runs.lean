import Verif.Lemmas.Peg
import Verif.Lemmas.SynCut
import Verif.Props.Syn

/-!
Property theorems for the single constructs of grammars: C35 - C39, C41.

`Runs env e pos s r s'` means that the interpreter, with a large enough budget, ends expression `e`
started at `pos` in state `s` with result `r` in state `s'`.
-/

namespace Fall
open Spec Convert

/-- Evaluating an example. -/
theorem runs_eval {env : Env} {e : Nat} {pos : Pos} {s : PState} {r : Option Pos} (n : Nat)
    (es : List Event)
    (h : (match Parser.parseExpr env n e pos s with
      | .ok r' s' => decide (r' = r ∧ s'.events = es)
      | _ => false) = true) : ∃ s', Runs env e pos s r s' ∧ s'.events = es := by
  split at h
  · rename_i r' s' hr
    obtain ⟨h1, h2⟩ := of_decide_eq_true h
    exact ⟨s', ⟨n, h1 ▸ hr⟩, h2⟩
  · cases h

/-! ## C35 parsing expression grammars -/

/-- C35. On expressions `S` made of tokens, any-token, end-of-input, sequence, ordered choice,
optional, repetition, negation (and node and cache marks) the interpreter does what the semantics of
parsing expression grammars says for the types of the tokens up to the end of the layer: if matching
leaves `r`, the interpreter ends with the position where `r` begins, from any state, and it ends in no
other way. -/
theorem C35_peg (env : Env) (hc : env.cache = none) (S : Nat → Prop) (hS : PegFragment env.grammar S)
    (e : Nat) (he : S e) (pos : Pos) (xs : List NodeType) (hi : Input env pos xs) :
    (∀ r, Peg env.grammar (.expr e) xs r → ∀ s,
      ∃ s', Runs env e pos s (r.map fun ys => ⟨pos.stop - ys.length, pos.stop⟩) s') ∧
    (∀ r s s', Runs env e pos s r s' → ∃ r', Peg env.grammar (.expr e) xs r' ∧
      r = r'.map (fun ys => ⟨pos.stop - ys.length, pos.stop⟩) ∧ ∀ ys, r' = some ys → ys <:+ xs) := by
  constructor
  · intro r h s
    exact Parser.Peg.runs hc h pos hi s
  · rintro r s s' ⟨n, h⟩
    obtain ⟨r', h1, h2⟩ := Parser.peg_rec hc hS n e he pos xs hi s r s' h
    exact ⟨r', h1, h2, h1.suffix⟩

/-- C35, for whole token lists: the input at the beginning is the list of types of the tokens that
are not whitespace. -/
theorem C35_peg_tokens (g : Grammar) (isWs : NodeType → Bool) (text : List Nat) (tokens : List Token)
    (S : Nat → Prop) (hS : PegFragment g S) (e : Nat) (he : S e) (s : PState) :
    let env := Env.new none g isWs text tokens
    let xs := (tokens.filter fun t => !isWs t.ty).map (·.ty)
    ((∃ ys, Peg g (.expr e) xs (some ys)) ↔ ∃ q s', Runs env e env.startPos s (some q) s') ∧
    (Peg g (.expr e) xs none ↔ ∃ s', Runs env e env.startPos s none s') := by
  intro env xs
  obtain ⟨h1, h2⟩ := C35_peg env rfl S hS e he env.startPos xs input_start
  refine ⟨⟨?_, ?_⟩, ?_, ?_⟩
  · rintro ⟨ys, h⟩
    obtain ⟨s', h⟩ := h1 _ h s
    exact ⟨_, s', h⟩
  · rintro ⟨q, s', h⟩
    obtain ⟨r', h3, h4, _⟩ := h2 _ _ _ h
    cases r' with
    | none => cases h4
    | some ys => exact ⟨ys, h3⟩
  · intro h
    exact h1 _ h s
  · rintro ⟨s', h⟩
    obtain ⟨r', h3, h4, _⟩ := h2 _ _ _ h
    cases r' with
    | none => exact h3
    | some ys => cases h4

/-- `file = (num plus | num)* !plus`: the order of the alternatives matters. -/
def pegGrammar : Grammar where
  nodeTypes := [4, 2, 3]
  rules := [.pub 0 1 false, .and [2, 5] none, .rep 3, .or [4, 6], .and [6, 7] none, .not 7, .token 1,
    .token 2]
  startRule := 0

theorem pegGrammar_fragment : PegFragment pegGrammar fun _ => True := by
  intro e _ rule h
  have := List.mem_of_getElem? h
  simp only [pegGrammar, List.mem_cons, List.not_mem_nil, or_false] at this
  rcases this with rfl | rfl | rfl | rfl | rfl | rfl | rfl | rfl <;> simp

/-- `1+ 2 3` -/
def pegEnv : Env := Env.new none pegGrammar (· == 1) [49, 43, 32, 50, 32, 51]
  [⟨2, 1⟩, ⟨3, 1⟩, ⟨1, 1⟩, ⟨2, 1⟩, ⟨1, 1⟩, ⟨2, 1⟩]

example : ∃ s', Runs pegEnv 0 pegEnv.startPos .new (some ⟨4, 4⟩) s' ∧ s'.events =
    [.start 4 none, .token 2 1, .token 3 1, .token 2 1, .token 2 1, .fin] :=
  runs_eval 12 _ (by decide +kernel)

/-- In the other order the shorter alternative is taken and what comes next does not match. -/
example : ∃ s', Runs (Env.new none { pegGrammar with rules := pegGrammar.rules.set 3 (.or [6, 4]) }
    (· == 1) [49, 43] [⟨2, 1⟩, ⟨3, 1⟩]) 0 ⟨0, 2⟩ .new none s' ∧ s'.events = [] :=
  runs_eval 12 _ (by decide +kernel)

/-! ## C36 optional and repeated expressions -/

theorem Spec.SameScope.trans {s s1 s2 : PState} (h : SameScope s s1) (h' : SameScope s1 s2) :
    SameScope s s2 := ⟨h'.1.trans h.1, h'.2.1.trans h.2.1, h'.2.2.trans h.2.2⟩

theorem Spec.SameScope.rfl {s : PState} : SameScope s s := ⟨.refl _, .refl _, .refl _⟩

theorem Runs.scope {env : Env} {e : Nat} {pos : Pos} {s s' : PState} {r : Option Pos}
    (h : Runs env e pos s r s') : SameScope s s' := by
  obtain ⟨n, h⟩ := h
  obtain ⟨h1, h2, h3, _⟩ := C24_failure_leaves_no_trace env n e pos s s' r h
  exact ⟨h3, h1, h2⟩

theorem Looks.scope {env : Env} {e : Nat} {pos : Pos} {s s' : PState} {r : Option Pos}
    (h : Looks env e pos s r s') : SameScope s s' := by
  obtain ⟨s1, h, rfl⟩ := h
  obtain ⟨_, h2, h3⟩ := Runs.scope h
  exact ⟨.refl _, h2, h3⟩

theorem Attempt.scope {env : Env} {first body : Nat} {pos : Pos} {s s' : PState} {r : Option Pos}
    (h : Attempt env first body pos s r s') : SameScope s s' := by
  rcases h with ⟨h, _⟩ | ⟨q, s1, h1, h2⟩
  · exact Looks.scope h
  · exact (Looks.scope h1).trans (Runs.scope h2)

/-- C36. An optional expression never fails: it ends where its body does, or, if that fails, where it
started and without output. -/
theorem C36_optional (env : Env) (e body : Nat) (he : env.grammar.rules[e]? = some (.opt body))
    (pos : Pos) (s s' : PState) (r : Option Pos) :
    Runs env e pos s r s' ↔
      (∃ q, Runs env body pos (ticked s) (some q) s' ∧ r = some q) ∨
      (Runs env body pos (ticked s) none s' ∧ r = some pos ∧ s'.events = s.events) := by
  rw [Parser.runs_opt he]
  constructor
  · rintro ⟨rb, h, rfl⟩
    cases rb with
    | none => exact Or.inr ⟨h, rfl, h.fail_events⟩
    | some q => exact Or.inl ⟨q, h, rfl⟩
  · rintro (⟨q, h, rfl⟩ | ⟨h, rfl, _⟩)
    · exact ⟨_, h, rfl⟩
    · exact ⟨_, h, rfl⟩

/-- C36. A repetition never fails, and at the position where it ends the body fails, without
output, in the same contexts and with the same arguments. -/
theorem C36_repetition (env : Env) (e body : Nat) (he : env.grammar.rules[e]? = some (.rep body))
    (pos : Pos) (s s' : PState) (r : Option Pos) (h : Runs env e pos s r s') :
    ∃ q, r = some q ∧ Repeats env body pos (ticked s) q s' ∧
      ∃ s1, SameScope s s1 ∧ Runs env body q s1 none s' ∧ s'.events = s1.events := by
  obtain ⟨q, rfl, h'⟩ := (Parser.runs_rep he).1 h
  refine ⟨q, rfl, h', ?_⟩
  clear he h
  have h0 : SameScope s (ticked s) := SameScope.rfl
  generalize ticked s = s0 at h' h0
  induction h' with
  | stop h => exact ⟨_, h0, h, h.fail_events⟩
  | step h _ ih => exact ih (h0.trans (Runs.scope h))

/-- C36. A repetition ends if its body does so each time, and then nowhere else. -/
theorem C36_repetition_ends (env : Env) (e body : Nat)
    (he : env.grammar.rules[e]? = some (.rep body)) (pos q : Pos) (s s' : PState)
    (h : Repeats env body pos (ticked s) q s') :
    Runs env e pos s (some q) s' ∧ ∀ r s2, Runs env e pos s r s2 → r = some q ∧ s2 = s' := by
  have := (Parser.runs_rep he).2 ⟨q, rfl, h⟩
  refine ⟨this, fun r s2 h2 => ?_⟩
  obtain ⟨h3, h4⟩ := this.det h2
  exact ⟨h3.symm, h4.symm⟩

example : ∃ s', Runs pegEnv 2 ⟨0, 3⟩ .new (some ⟨3, 3⟩) s' ∧ s'.events =
    [.token 2 1, .token 3 1, .token 2 1] := runs_eval 12 _ (by decide +kernel)

/-- An optional plus sign before a number. -/
example : ∃ s', Runs (Env.new none ⟨[2, 3], [.opt 1, .token 1], 0⟩ (· == 1) [49] [⟨2, 1⟩]) 0 ⟨0, 1⟩ .new
    (some ⟨0, 1⟩) s' ∧ s'.events = [] := runs_eval 3 _ (by decide +kernel)

/-! ## C37 commit -/

/-- The first part that fails. -/
theorem InTurn.stuck_at {env : Env} {parts : List Nat} {pos q : Pos} {s s' : PState} {k : Nat}
    (h : InTurn env parts pos s k q s') (hk : k < parts.length) :
    ∃ p s0, parts[k]? = some p ∧ SameScope s s0 ∧ Runs env p q s0 none s' := by
  induction h with
  | all => simp at hk
  | stuck h => exact ⟨_, _, rfl, SameScope.rfl, h⟩
  | step h _ ih =>
    obtain ⟨p, s0, h1, h2, h3⟩ := ih (by simpa using hk)
    exact ⟨p, s0, h1, (Runs.scope h).trans h2, h3⟩

theorem InTurn.le {env : Env} {parts : List Nat} {pos q : Pos} {s s' : PState} {k : Nat}
    (h : InTurn env parts pos s k q s') : k ≤ parts.length := by
  induction h with
  | all => simp
  | stuck h => simp
  | step _ _ ih => simpa using ih

/-- C37. Of the parts of a sequence the first `k` succeed, one after the other, up to `q`. With a
commit point after `c` parts, the sequence fails exactly if `k < c`, and then there is no output.
Otherwise it ends at `q`; if there is another part, that part has failed at `q` without output and one
empty ERROR node is added, and else nothing is. -/
theorem C37_commit (env : Env) (e : Nat) (parts : List Nat) (c : Nat) (hcommit : c ≤ parts.length)
    (he : env.grammar.rules[e]? = some (.and parts (some c))) (pos : Pos) (s s' : PState)
    (r : Option Pos) (h : Runs env e pos s r s') :
    ∃ k q s1, InTurn env parts pos (ticked s) k q s1 ∧ k ≤ parts.length ∧
      (r = none ↔ k < c) ∧ (r = none → s'.events = s.events) ∧
      (c ≤ k → r = some q ∧
        (k = parts.length ∧ s' = s1 ∨
          ∃ p s0, parts[k]? = some p ∧ SameScope s s0 ∧ Runs env p q s0 none s1 ∧
            s1.events = s0.events ∧ s' = emit s1 [.start ERROR none, .fin])) := by
  obtain ⟨k, q, s1, h1, h2⟩ := (Parser.runs_and he).1 h
  simp only [Option.getD_some] at h2
  refine ⟨k, q, s1, h1, InTurn.le h1, ?_⟩
  rcases h2 with ⟨h2, rfl, rfl⟩ | ⟨h2, rfl, rfl⟩
  · exact ⟨by simpa using h2, fun _ => rfl, fun h => by omega⟩
  · refine ⟨by simpa using h2, by simp, fun _ => ⟨rfl, ?_⟩⟩
    by_cases hk : k < parts.length
    · obtain ⟨p, s0, h3, hs, h4⟩ := InTurn.stuck_at h1 hk
      exact Or.inr ⟨p, s0, h3, hs, h4, h4.fail_events, by rw [if_pos hk]; rfl⟩
    · exact Or.inl ⟨by have := InTurn.le h1; omega, by rw [if_neg hk]⟩

/-- C37. Without a commit point a sequence fails exactly if one of the parts does, and else adds
nothing. -/
theorem C37_no_commit (env : Env) (e : Nat) (parts : List Nat)
    (he : env.grammar.rules[e]? = some (.and parts none)) (pos : Pos) (s s' : PState)
    (r : Option Pos) (h : Runs env e pos s r s') :
    ∃ k q s1, InTurn env parts pos (ticked s) k q s1 ∧
      (k < parts.length ∧ r = none ∧ s'.events = s.events ∨
        k = parts.length ∧ r = some q ∧ s' = s1) := by
  obtain ⟨k, q, s1, h1, h2⟩ := (Parser.runs_and he).1 h
  simp only [Option.getD_none] at h2
  refine ⟨k, q, s1, h1, ?_⟩
  have := InTurn.le h1
  rcases h2 with ⟨h2, rfl, rfl⟩ | ⟨h2, rfl, rfl⟩
  · exact Or.inl ⟨h2, rfl, rfl⟩
  · exact Or.inr ⟨by omega, rfl, by rw [if_neg (by omega)]⟩

/-- `num <commit> plus num` on `1+`, and on `+`. -/
def commitEnv (text : List Nat) (tokens : List Token) : Env :=
  Env.new none ⟨[2, 3], [.and [1, 2, 1] (some 1), .token 0, .token 1], 0⟩ (· == 1) text tokens

example : ∃ s', Runs (commitEnv [49, 43] [⟨2, 1⟩, ⟨3, 1⟩]) 0 ⟨0, 2⟩ .new (some ⟨2, 2⟩) s' ∧
    s'.events = [.token 2 1, .token 3 1, .start 0 none, .fin] :=
  runs_eval 5 _ (by decide +kernel)

example : ∃ s', Runs (commitEnv [43] [⟨3, 1⟩]) 0 ⟨0, 1⟩ .new none s' ∧ s'.events = [] :=
  runs_eval 5 _ (by decide +kernel)

/-! ## C38 layers -/

/-- C38. A layer ends exactly as its bound does as lookahead. If the bound ends at `rest`, the body is
run with the layer ending there, and the tokens it leaves over (all of them, if it fails) are put in
one ERROR node, if there are any. -/
theorem C38_layer (env : Env) (e l body : Nat) (he : env.grammar.rules[e]? = some (.layer l body))
    (pos : Pos) (s s' : PState) (r : Option Pos) :
    Runs env e pos s r s' ↔ ∃ s1, Looks env l pos (ticked s) r s1 ∧
      match (generalizing := false) r with
      | none => s' = { s1 with events := s.events }
      | some rest => ∃ rb s2 es, Runs env body ⟨pos.cur, rest.cur⟩ s1 rb s2 ∧
          Rest env (rb.getD ⟨pos.cur, rest.cur⟩) es ∧
          s' = emit s2 (if es = [] then [] else .start ERROR none :: (es ++ [.fin])) := by
  rw [Parser.runs_layer he]
  constructor
  · rintro ⟨rl, s1, h1, ⟨rfl, rfl, rfl⟩ | ⟨rest, rb, s2, es, rfl, h2, h3, rfl, rfl⟩⟩
    · exact ⟨s1, h1, rfl⟩
    · exact ⟨s1, h1, rb, s2, es, h2, h3, rfl⟩
  · rintro ⟨s1, h1, h⟩
    cases r with
    | none => exact ⟨none, s1, h1, Or.inl ⟨rfl, rfl, h⟩⟩
    | some rest =>
      obtain ⟨rb, s2, es, h2, h3, rfl⟩ := h
      exact ⟨_, s1, h1, Or.inr ⟨rest, rb, s2, es, rfl, h2, h3, rfl, rfl⟩⟩

/-- C38. What is run in a layer sees only what is before its end: cutting off the tokens and the text
after it changes nothing. -/
theorem C38_layer_confines (g : Grammar) (isWs : NodeType → Bool) (text1 text2 : List Nat)
    (tokens1 tokens2 : List Token) (h1 : (tokens1.map (·.len)).sum = text1.length)
    (h2 : (tokens2.map (·.len)).sum = text2.length) (e : Nat) (pos : Pos) (hp : pos.cur ≤ pos.stop)
    (hstop : pos.stop ≤ (tokens1.filter fun t => !isWs t.ty).length) (s s' : PState)
    (r : Option Pos) :
    Runs (Env.new none g isWs (text1 ++ text2) (tokens1 ++ tokens2)) e pos s r s' ↔
      Runs (Env.new none g isWs text1 tokens1) e pos s r s' := by
  have hlen : (tokens1.filter fun t => !isWs t.ty).length =
      (Env.new none g isWs text1 tokens1).nonWs.length := by
    have := Parser.Input.length (input_start (cache := none) (g := g) (isWs := isWs) (text := text1)
      (tokens := tokens1))
    simpa [Env.startPos] using this
  exact Parser.runs_congr (cut_envSim h1 (by omega)) rfl rfl ⟨hp, by omega, by simp⟩

/-- A layer bounded by `num num`, with the body `num` or `num plus`, on `1 2+`. -/
def layerEnv : Env :=
  Env.new none ⟨[2, 3], [.layer 1 2, .and [4, 4] none, .or [3, 4], .and [4, 4, 5] none, .token 0,
    .token 1], 0⟩ (· == 1) [49, 32, 50, 43] [⟨2, 1⟩, ⟨1, 1⟩, ⟨2, 1⟩, ⟨3, 1⟩]

example : ∃ s', Runs layerEnv 0 ⟨0, 3⟩ .new (some ⟨2, 3⟩) s' ∧
    s'.events = [.token 2 1, .start 0 none, .token 2 1, .fin] :=
  runs_eval 9 _ (by decide +kernel)

/-! ## C39 skipping -/

theorem skipTo_attempts {env : Env} (hc : env.cache = none) {first body : Nat} {E es0 : List Event}
    {pos : Pos} {s s' : PState} {r : Option Pos} (h : SkipTo env first body E es0 pos s r s')
    (h0 : s.predicate = false → s.events = E ++ skippedNode es0) :
    ∃ k es, Records env pos.cur k es ∧ (pos.cur ≤ pos.stop → pos.cur + k ≤ pos.stop) ∧
      (∀ i, i < k → ∃ s1 s2, SameScope s s1 ∧
        (s.predicate = false → s1.events = E ++ skippedNode (es0 ++ es.take i)) ∧
        Attempt env first body ⟨pos.cur + i, pos.stop⟩ s1 none s2) ∧
      ∃ s1, SameScope s s1 ∧
        (s.predicate = false → s1.events = E ++ skippedNode (es0 ++ es)) ∧
        Attempt env first body ⟨pos.cur + k, pos.stop⟩ s1 r s' ∧
        (r = none → pos.cur + k = pos.stop) := by
  induction h with
  | found h =>
    exact ⟨0, [], .nil, fun h => h, fun i hi => by omega, _, SameScope.rfl, by simpa using h0, h,
      by simp⟩
  | exhausted h he =>
    exact ⟨0, [], .nil, fun h => h, fun i hi => by omega, _, SameScope.rfl, by simpa using h0, h,
      fun _ => he⟩
  | @skip pos s s1 t es r s' hA hne ht _ ih =>
    obtain ⟨hev, hpr⟩ := Parser.attempt_none hc hA
    have hscope : SameScope s (if s1.predicate = true then s1
        else { s1 with events := E ++ errorNode (es ++ [.token t 1]) }) := by
      have := Attempt.scope hA
      split
      · exact this
      · exact this
    obtain ⟨k, es', g1, g2, g3, s2, g5, g6, g4, g7⟩ := ih (by
      intro hp
      split
      · rename_i hs1
        rw [if_pos hs1, hs1] at hp
        cases hp
      · simp [skippedNode])
    rw [hscope.1] at g6
    refine ⟨k + 1, .token t 1 :: es', .cons ht g1, fun h => ?_, ?_, s2, hscope.trans g5, ?_, ?_, ?_⟩
    · have := g2 (by simp only; omega)
      simp only at this
      omega
    · intro i hi
      cases i with
      | zero => exact ⟨_, _, SameScope.rfl, by simpa using h0, hA⟩
      | succ i =>
        obtain ⟨a, b, g8, g10, g9⟩ := g3 i (by omega)
        refine ⟨a, b, hscope.trans g8, ?_, ?_⟩
        · intro hp
          rw [g10 (by rw [hscope.1]; exact hp), List.append_assoc]
          rfl
        · rw [show pos.cur + (i + 1) = pos.cur + 1 + i by omega]; exact g9
    · intro hp
      rw [g6 hp, List.append_assoc]
      rfl
    · rw [show pos.cur + (k + 1) = pos.cur + 1 + k by omega]; exact g4
    · intro hr
      have := g7 hr
      simp only at this
      omega

/-- C39. `with_skip` skips `k` tokens, at each of which the first set does not match or the body
fails. Either the body then succeeds where the first set matches, with the skipped tokens, if any, in
one ERROR node directly before it; or all tokens up to the end of the layer have been skipped, there
is no body at the end either, and there is no output. -/
theorem C39_with_skip (env : Env) (hc : env.cache = none) (e first body : Nat)
    (he : env.grammar.rules[e]? = some (.withSkip first body)) (pos : Pos) (s s' : PState)
    (r : Option Pos) (h : Runs env e pos s r s') :
    ∃ k es, Records env pos.cur k es ∧ (pos.cur ≤ pos.stop → pos.cur + k ≤ pos.stop) ∧
      (∀ i, i < k → ∃ s1 s2, SameScope s s1 ∧
        (s.predicate = false → s1.events = s.events ++ skippedNode (es.take i)) ∧
        Attempt env first body ⟨pos.cur + i, pos.stop⟩ s1 none s2) ∧
      match (generalizing := false) r with
      | some q => ∃ s1, SameScope s s1 ∧
          (s.predicate = false → s1.events =
            s.events ++ if es = [] then [] else .start ERROR none :: (es ++ [.fin])) ∧
          Attempt env first body ⟨pos.cur + k, pos.stop⟩ s1 (some q) s'
      | none => pos.cur + k = pos.stop ∧
          (∃ s1 s2, SameScope s s1 ∧ Attempt env first body ⟨pos.cur + k, pos.stop⟩ s1 none s2) ∧
          s'.events = s.events := by
  obtain ⟨s1, h1, h2⟩ := (Parser.runs_withSkip hc he).1 h
  obtain ⟨k, es, g1, g2, g3, s2, g5, g6, g4, g7⟩ := skipTo_attempts hc h1 (by
    intro _; simp [ticked, skippedNode])
  refine ⟨k, es, g1, g2, fun i hi => ?_, ?_⟩
  · obtain ⟨a, b, h1, h2, h⟩ := g3 i hi
    exact ⟨a, b, h1, h2, h⟩
  · cases r with
    | none => exact ⟨g7 rfl, ⟨_, _, g5, g4⟩, by rw [h2]; rfl⟩
    | some q =>
      rw [h2]
      exact ⟨s2, g5, g6, g4⟩

/-- Skipping to `num`, which has to be followed by a plus sign, on `+ 1 2+`. -/
def skipEnv : Env :=
  Env.new none ⟨[2, 3], [.withSkip 2 1, .and [2, 3] none, .token 0, .token 1], 0⟩ (· == 1)
    [43, 32, 49, 32, 50, 43] [⟨3, 1⟩, ⟨1, 1⟩, ⟨2, 1⟩, ⟨1, 1⟩, ⟨2, 1⟩, ⟨3, 1⟩]

example : ∃ s', Runs skipEnv 0 ⟨0, 4⟩ .new (some ⟨4, 4⟩) s' ∧
    s'.events = [.start 0 none, .token 3 1, .token 2 1, .fin, .token 2 1, .token 3 1] :=
  runs_eval 9 _ (by decide +kernel)

example : ∃ s', Runs skipEnv 0 ⟨0, 3⟩ .new none s' ∧ s'.events = [] :=
  runs_eval 9 _ (by decide +kernel)

/-! ## C41 tokens selected by text -/

/-- C41. A contextual token for `w` at significant token number `pos.cur`, which is token number `k`
and begins at offset `st`, succeeds exactly if the text from there on begins with `w`, and `w` is made
up by some of the tokens from number `k` on, all of them in the layer. It consumes these tokens and
records them as one token of its type. Here no whitespace token may begin inside of `w`. -/
theorem C41_contextual_token (g : Grammar) (isWs : NodeType → Bool) (text : List Nat)
    (tokens : List Token) (hpos : ∀ t ∈ tokens, 0 < t.len)
    (hlen : (tokens.map (·.len)).sum = text.length) (e ty : Nat) (w : List Nat) (t : NodeType)
    (he : g.rules[e]? = some (.contextualToken ty w)) (ht : g.nodeTypes[ty]? = some t) (pos : Pos)
    (hcur : pos.cur < pos.stop) (hstop : pos.stop ≤ (Env.new none g isWs text tokens).nonWs.length)
    (st k : Nat) (hi : (Env.new none g isWs text tokens).nonWs[pos.cur]? = some (st, k))
    (hplain : ∀ (m : Nat) (t : Token), tokens[m]? = some t → isWs t.ty = true →
      ((tokens.take m).map (·.len)).sum ≤ st ∨ st + w.length ≤ ((tokens.take m).map (·.len)).sum)
    (s s' : PState) (r : Option Pos) :
    Runs (Env.new none g isWs text tokens) e pos s r s' ↔
      (∃ raw, w <+: text.drop st ∧ raw <+: tokens.drop k ∧ (raw.map (·.len)).sum = w.length ∧
        pos.cur + raw.length ≤ pos.stop ∧ r = some ⟨pos.cur + raw.length, pos.stop⟩ ∧
        s' = emit (ticked s) [.token t raw.length]) ∨
      ((¬ ∃ raw, w <+: text.drop st ∧ raw <+: tokens.drop k ∧ (raw.map (·.len)).sum = w.length ∧
        pos.cur + raw.length ≤ pos.stop) ∧ r = none ∧ s' = ticked s) := by
  have hE : EnvOk (Env.new none g isWs text tokens) := envOk_new (by omega)
  rw [Parser.runs_contextual (env := Env.new none g isWs text tokens) hE
    ⟨Nat.le_of_lt hcur, hstop⟩ he ht]
  have hiff : ∀ n, SpellsFrom (Env.new none g isWs text tokens) pos n w ↔ _ := fun n =>
    spellsFrom_iff hpos hcur hstop hi hplain
  constructor
  · rintro (⟨n, h1, rfl, rfl⟩ | ⟨h1, rfl, rfl⟩)
    · obtain ⟨h2, raw, h3, rfl, h4, h5⟩ := (hiff n).1 h1
      exact Or.inl ⟨raw, h2, h3, h4, h5, rfl, rfl⟩
    · refine Or.inr ⟨?_, rfl, rfl⟩
      rintro ⟨raw, h2, h3, h4, h5⟩
      exact h1 raw.length ((hiff _).2 ⟨h2, raw, h3, rfl, h4, h5⟩)
  · rintro (⟨raw, h2, h3, h4, h5, rfl, rfl⟩ | ⟨h1, rfl, rfl⟩)
    · exact Or.inl ⟨raw.length, (hiff _).2 ⟨h2, raw, h3, rfl, h4, h5⟩, rfl, rfl⟩
    · refine Or.inr ⟨fun n h => h1 ?_, rfl, rfl⟩
      obtain ⟨h2, raw, h3, rfl, h4, h5⟩ := (hiff n).1 h
      exact ⟨raw, h2, h3, h4, h5⟩

/-- The shift operator `>>` as a contextual token over two `>` tokens (3). -/
def shiftGrammar (w : List Nat) : Grammar := ⟨[7, 3], [.contextualToken 0 w], 0⟩

/-- ` >>>` -/
example : ∃ s', Runs (Env.new none (shiftGrammar [62, 62]) (· == 1) [32, 62, 62, 62]
    [⟨1, 1⟩, ⟨3, 1⟩, ⟨3, 1⟩, ⟨3, 1⟩]) 0 ⟨0, 3⟩ .new (some ⟨2, 3⟩) s' ∧ s'.events = [.token 7 2] :=
  runs_eval 3 _ (by decide +kernel)

/-- C41 needs the condition on whitespace: only the significant tokens are counted, so a string with a
space in it (`> >`) takes as many `>` as it has characters, the last of them after its end. -/
theorem C41_counterexample :
    ∃ (s' : PState) (text : List Nat) (tokens : List Token), text = [62, 32, 62, 62] ∧
      Runs (Env.new none (shiftGrammar [62, 32, 62]) (· == 1) text tokens) 0 ⟨0, 3⟩ .new
        (some ⟨3, 3⟩) s' ∧
      (tokens.map (·.len)).sum = 4 := by
  obtain ⟨s', h, _⟩ := runs_eval (env := Env.new none (shiftGrammar [62, 32, 62]) (· == 1)
    [62, 32, 62, 62] [⟨3, 1⟩, ⟨1, 1⟩, ⟨3, 1⟩, ⟨3, 1⟩]) (e := 0) (pos := ⟨0, 3⟩) (s := .new)
    (r := some ⟨3, 3⟩) 3 [.token 7 3] (by decide +kernel)
  exact ⟨s', [62, 32, 62, 62], [⟨3, 1⟩, ⟨1, 1⟩, ⟨3, 1⟩, ⟨3, 1⟩], rfl, h, rfl⟩

end Fall
