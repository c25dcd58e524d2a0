import Verif.Lemmas.Reparse
import Verif.Model.Languages

/-! A parser that looks up rules in another way, for running the parser of Rust in proofs. -/

namespace Fall.Parser

/-- Like `resolveArg`. -/
def resolveArgBy (look : Nat → Option Expr) (arg : Nat) : P Nat := do
  let s ← P.get
  match ← P.lift (look arg) with
  | .var i => P.lift s.args[i]?.join
  | _ => pure arg

/-- Like `setArgs`. -/
def setArgsBy (look : Nat → Option Expr) : List (Nat × Nat) → P Unit
  | [] => pure ()
  | (argPos, arg) :: args => do
    let arg ← resolveArgBy look arg
    if argPos < (← P.get).args.length then do
      P.modify fun s => { s with args := s.args.set argPos (some arg) }
      setArgsBy look args
    else P.panic

/-- Like `parseCall`. -/
def parseCallBy (look : Nat → Option Expr) (rec : Rec) (pos : Pos) (body : Nat) (args : List (Nat × Nat)) :
    P (Option Pos) := do
  let old := (← P.get).args
  setArgsBy look args
  let result ← rec body pos
  P.modify fun s => { s with args := old }
  pure result

/-- Like `parseExprInner`. -/
def parseExprInnerBy (look : Nat → Option Expr) (env : Env) (rec : Rec) (n : Nat) (expr : Nat) (pos : Pos) :
    P (Option Pos) := do
  match ← P.lift (look expr) with
  | .pub ty body replaceable => parsePub env rec pos ty body replaceable
  | .pubReplace ty body => parsePubReplace rec pos ty body
  | .or parts => parseOr rec pos parts
  | .and parts commit => parseAnd rec pos parts commit
  | .token ty => parseToken env pos ty
  | .contextualToken ty text => bumpByText env pos text ty
  | .opt body => parseOpt rec pos body
  | .not e => parseNot rec pos e
  | .eof => pure (if pos.isEmpty then some pos else none)
  | .any => do
    match ← bump env pos with
    | some (_, ts) => pure (some ts)
    | none => pure none
  | .layer l e => parseLayer env rec pos l e
  | .rep body => repLoop rec body n pos
  | .withSkip first body => withSkipLoop env rec first body n false pos
  | .pratt table => prattGo env rec table n pos 0
  | .enter ctx e => parseWithContext rec pos ctx e true
  | .exit ctx e => parseWithContext rec pos ctx e false
  | .isIn ctx => parseIsIn pos ctx
  | .call body args => parseCallBy look rec pos body args
  | .var i => parseVar rec pos i
  | .prevIs tys => parsePrevIs env pos tys
  | .inject pre body => parseInject rec pos pre body
  | .cached body => parseCached env rec pos body

/-- Like `parseExpr`. -/
def parseExprBy (look : Nat → Option Expr) (env : Env) : Nat → Rec
  | 0, _, _ => P.timeout
  | n + 1, expr, pos => do
    tick
    let m ← mark
    let result ← parseExprInnerBy look env (parseExprBy look env n) n expr pos
    P.cond result.isNone (rollback m)
    pure result

/-- Like `parseMain`. -/
def parseMainBy (look : Nat → Option Expr) (env : Env) (n : Nat) : P Unit := do
  let leftover ← P.lift (← parseExprBy look env n env.grammar.startRule env.startPos)
  P.cond (!leftover.isEmpty) do
    reopen
    startError
    bumpAll env leftover
    finish
    finish

theorem setArgsBy_eq {env : Env} : setArgsBy (fun e => env.grammar.rules[e]?) = setArgs env := by
  funext args
  induction args with
  | nil => rfl
  | cons x args ih =>
    unfold setArgsBy setArgs
    rw [ih]
    rfl

theorem parseExprBy_eq {env : Env} : parseExprBy (fun e => env.grammar.rules[e]?) env = parseExpr env := by
  funext n
  induction n with
  | zero => rfl
  | succ n ih =>
    funext e pos
    unfold parseExprBy parseExpr
    rw [ih]
    have : parseCallBy (fun e => env.grammar.rules[e]?) = parseCall env := by
      funext rec pos body args
      unfold parseCallBy parseCall
      rw [setArgsBy_eq]
    unfold parseExprInnerBy parseExprInner
    rw [this]
    rfl

end Parser

/-- Like `synParse`. -/
def synParseBy (look : Nat → Option Expr) (env : Env) (n : Nat) : Result (List Event × Nat) :=
  match Parser.parseMainBy look env n .new with
  | .ok _ s => .ok (s.events, s.ticks)
  | .panic => .panic
  | .timeout => .timeout

theorem synParseBy_eq {look : Nat → Option Expr} {env : Env} (h : ∀ e, look e = env.grammar.rules[e]?) (n : Nat) :
    synParseBy look env n = synParse env n := by
  have : look = fun e => env.grammar.rules[e]? := funext h
  subst this
  unfold synParseBy synParse Parser.parseMainBy Parser.parseMain
  rw [Parser.parseExprBy_eq]
  rfl

/-- A list in pieces. -/
def lookPieces (k : Nat) (pieces : List (List β)) (i : Nat) : Option β :=
  match pieces[i / k]? with
  | some piece => piece[i % k]?
  | none => none

theorem lookPieces_eq {k : Nat} (hk : 0 < k) {pieces : List (List β)}
    (h : pieces.dropLast.all (·.length == k) = true) (hl : ∀ p ∈ pieces, p.length ≤ k) (i : Nat) :
    lookPieces k pieces i = pieces.flatten[i]? := by
  induction pieces generalizing i with
  | nil => simp [lookPieces]
  | cons p ps ih =>
    by_cases hi : i < k
    · have h0 : i / k = 0 := Nat.div_eq_of_lt hi
      have h1 : i % k = i := Nat.mod_eq_of_lt hi
      simp only [lookPieces, h0, h1, List.getElem?_cons_zero, List.flatten_cons]
      by_cases hp : i < p.length
      · rw [List.getElem?_append_left hp]
      · cases ps with
        | nil => simp
        | cons q qs =>
          simp only [List.dropLast_cons_cons, List.all_cons, Bool.and_eq_true, beq_iff_eq] at h
          omega
    · cases ps with
      | nil =>
        have := hl p (by simp)
        have h2 : i / k ≠ 0 := by
          intro h
          rcases Nat.div_eq_zero_iff.1 h with h | h <;> omega
        simp only [lookPieces, List.flatten_cons, List.flatten_nil, List.append_nil]
        obtain ⟨m, hm⟩ := Nat.exists_eq_succ_of_ne_zero h2
        rw [hm, List.getElem?_eq_none (l := p) (by omega)]
        rfl
      | cons q qs =>
        simp only [List.dropLast_cons_cons, List.all_cons, Bool.and_eq_true, beq_iff_eq] at h
        have h3 := ih h.2 (fun p hp => hl p (List.mem_cons_of_mem _ hp)) (i - k)
        rw [List.flatten_cons, List.getElem?_append_right (by omega), h.1, ← h3]
        unfold lookPieces
        have h4 : i / k = (i - k) / k + 1 := by
          rw [← Nat.add_div_right _ hk]
          congr 1
          omega
        have h5 : i % k = (i - k) % k := by
          rw [Nat.mod_eq_sub_mod (by omega)]
        rw [h4, h5, List.getElem?_cons_succ]

/-- The rules of Rust in pieces. -/
def rustPieces : List (List Expr) :=
  [rustRules0, rustRules1, rustRules2, rustRules3, rustRules4, rustRules5, rustRules6, rustRules7, rustRules8,
   rustRules9, rustRules10, rustRules11, rustRules12, rustRules13, rustRules14]

theorem rust_look (e : Nat) : lookPieces 100 rustPieces e = rustGrammar.rules[e]? := by
  rw [lookPieces_eq (by decide) (by decide +kernel) (by decide +kernel)]
  have : rustPieces.flatten = rustRules := by
    simp only [rustPieces, rustRules, List.flatten_cons, List.flatten_nil, List.append_nil, List.append_assoc]
  rw [this]
  rfl

end Fall
