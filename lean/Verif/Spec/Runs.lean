import Verif.Spec.Syn

/-!
Vocabulary for properties of the single constructs of grammars: what running a construct amounts to
in terms of running its parts.
-/

namespace Fall.Spec

/-- Running `e` at `pos` in state `s` ends in state `s'` with the position after `e`, or with `none`
for a failure. -/
def Runs (env : Env) (e : Nat) (pos : Pos) (s : PState) (r : Option Pos) (s' : PState) : Prop :=
  ∃ n, Parser.parseExpr env n e pos s = .ok r s'

/-- Running `e` as lookahead. -/
def Looks (env : Env) (e : Nat) (pos : Pos) (s : PState) (r : Option Pos) (s' : PState) : Prop :=
  ∃ s1, Runs env e pos { s with predicate := true } r s1 ∧ s' = { s1 with predicate := s.predicate }

/-- One more expression is counted. -/
def ticked (s : PState) : PState := { s with ticks := s.ticks + 1 }

/-- The events are those of `s0` again. -/
def rewind (s s0 : PState) : PState := { s with events := s0.events }

/-- More events, unless in lookahead. -/
def emit (s : PState) (es : List Event) : PState :=
  if s.predicate then s else { s with events := s.events ++ es }

/-- Trying one expression after the other at the same position until one succeeds. -/
inductive FirstOf (env : Env) : List Nat → Pos → PState → Option Pos → PState → Prop
  | none : FirstOf env [] pos s none s
  | found : Runs env p pos s (some q) s' → FirstOf env (p :: ps) pos s (some q) s'
  | next : Runs env p pos s none s1 → FirstOf env ps pos s1 r s' → FirstOf env (p :: ps) pos s r s'

/-- Running one expression after the other, each where the previous one ended, until one fails:
`k` of them succeed and the last of these ends at `q`. -/
inductive InTurn (env : Env) : List Nat → Pos → PState → (k : Nat) → (q : Pos) → PState → Prop
  | all : InTurn env [] pos s 0 pos s
  | stuck : Runs env p pos s none s' → InTurn env (p :: ps) pos s 0 pos s'
  | step : Runs env p pos s (some q) s1 → InTurn env ps q s1 k q' s' →
      InTurn env (p :: ps) pos s (k + 1) q' s'

/-- Running an expression again and again, each time where it ended before, until it fails;
it ends at `q` before that. -/
inductive Repeats (env : Env) (body : Nat) : Pos → PState → (q : Pos) → PState → Prop
  | stop : Runs env body pos s none s' → Repeats env body pos s pos s'
  | step : Runs env body pos s (some q) s1 → Repeats env body q s1 q' s' →
      Repeats env body pos s q' s'

/-- A number of tokens from `pos` to the end of the layer, as single token records. -/
inductive Rest (env : Env) : Pos → List Event → Prop
  | nil : pos.cur = pos.stop → Rest env pos []
  | cons : pos.cur ≠ pos.stop → sigTy env pos.cur = some t → Rest env ⟨pos.cur + 1, pos.stop⟩ es →
      Rest env pos (.token t 1 :: es)

/-- An ERROR node. -/
def errorNode (es : List Event) : List Event := .start ERROR none :: (es ++ [.fin])

/-- Where to look for the body of `with_skip`: what is before it has to be in an ERROR node, if there
is anything. -/
def skippedNode (es : List Event) : List Event := if es = [] then [] else errorNode es

/-- Trying the body where the first set matches. -/
def Attempt (env : Env) (first body : Nat) (pos : Pos) (s : PState) (r : Option Pos) (s' : PState) :
    Prop :=
  Looks env first pos s none s' ∧ r = none ∨
    ∃ q s1, Looks env first pos s (some q) s1 ∧ Runs env body pos s1 r s'

/-- Attempts at one position after the other. `E` are the events before the first one and `es` the
records of the tokens skipped since then, which are kept in one ERROR node. -/
inductive SkipTo (env : Env) (first body : Nat) (E : List Event) : (es : List Event) → Pos → PState →
    Option Pos → PState → Prop
  | found : Attempt env first body pos s (some q) s' → SkipTo env first body E es pos s (some q) s'
  | exhausted : Attempt env first body pos s none s' → pos.cur = pos.stop →
      SkipTo env first body E es pos s none s'
  | skip : Attempt env first body pos s none s1 → pos.cur ≠ pos.stop →
      sigTy env pos.cur = some t →
      SkipTo env first body E (es ++ [.token t 1]) ⟨pos.cur + 1, pos.stop⟩
        (if s1.predicate then s1 else { s1 with events := E ++ errorNode (es ++ [.token t 1]) }) r s' →
      SkipTo env first body E es pos s r s'

/-- The records of the `k` significant tokens from number `i` on. -/
inductive Records (env : Env) : Nat → Nat → List Event → Prop
  | nil : Records env i 0 []
  | cons : sigTy env i = some t → Records env (i + 1) k es → Records env i (k + 1) (.token t 1 :: es)

/-- The same lookahead mode, contexts and arguments. -/
def SameScope (s s' : PState) : Prop :=
  s'.predicate = s.predicate ∧ s'.contexts = s.contexts ∧ s'.args = s.args

/-- The positions of the significant tokens are inside the text and the token list. -/
def EnvOk (env : Env) : Prop :=
  ∀ x ∈ env.nonWs, x.1 ≤ env.text.length ∧ x.2 < env.tokens.length

/-- A position in the tokens and an end of the layer not before it. -/
def PosOk (env : Env) (pos : Pos) : Prop := pos.cur ≤ pos.stop ∧ pos.stop ≤ env.nonWs.length

/-- The first `n` significant tokens from `pos` on are the least number of tokens, all in the layer,
as long as `w`, and the text from `pos` on begins with `w`. -/
def SpellsFrom (env : Env) (pos : Pos) (n : Nat) (w : List Nat) : Prop :=
  pos.cur ≠ pos.stop ∧ SpelledBy env pos.cur n w ∧ pos.cur + n ≤ pos.stop ∧
    ∀ m, m < n → sigLen env pos.cur m ≠ some w.length

end Fall.Spec
