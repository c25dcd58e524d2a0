import Verif.Model.Text

/-!
Model of `fall/parse/src/lex_engine.rs`.

A lexer is a function from the remaining text to the next token: `Lexer::next_token`
(lines 10-11). The regular expression engine behind it (`fall/parse/src/lib.rs` 53-60 and the
crate `m_lexer`) is this parameter.

Views are represented by the bytes they show, see `C01_slice_suffix`. A panic is `none`.
-/

namespace Fall

/-- `fall/tree/src/node_type.rs` 2. -/
abbrev NodeType := Nat

/-- `fall/tree/src/node_type.rs` 4. -/
def ERROR : NodeType := 0

/-- `fall/parse/src/lex_engine.rs` 4-8. -/
structure Token where
  ty : NodeType
  len : Nat
deriving DecidableEq, Repr

/-- `fall/parse/src/lex_engine.rs` 10-11: `next_token`. -/
abbrev Lexer (α : Type u) := List α → Token

/-- `fall/parse/src/lex_engine.rs` 13-17: the token and the remaining text; panics when the token
is longer than the text. -/
def Lexer.step (lexer : Lexer α) (text : List α) : Option (Token × List α) :=
  let t := lexer text
  if t.len ≤ text.length then some (t, text.drop t.len) else none

/-- The loop of `fall/parse/src/lex_engine.rs` 23-26 (and 104-106) with an iteration budget. -/
def lexLoop (lexer : Lexer α) : Nat → List α → List Token → Option (List Token)
  | fuel, text, result =>
    if text.isEmpty then some result
    else match fuel with
      | 0 => none
      | fuel + 1 =>
        (lexer.step text).bind fun (t, text) => lexLoop lexer fuel text (result ++ [t])

/-- `fall/parse/src/lex_engine.rs` 20-28. The loop gets one iteration per byte: a lexer that makes
progress does not need more, and one that returns an empty token makes the code loop forever
(`none` here). -/
def lex (lexer : Lexer α) (text : List α) : Option (List Token) :=
  lexLoop lexer text.length text []

/-- The mutable variables of `relex`, `fall/parse/src/lex_engine.rs` 41-48 and 56. -/
structure RelexState (α : Type u) where
  /-- `old_tokens`: what the iterator still has to give. -/
  old : List Token
  oldLen : Nat
  /-- `new_tokens`. -/
  new : List Token
  newLen : Nat
  /-- `txt`. -/
  txt : List α
  reused : Nat
deriving DecidableEq, Repr

/-- Lexes one token into `new_tokens`: `fall/parse/src/lex_engine.rs` 58-60, 76-78. -/
def RelexState.stepNew (lexer : Lexer α) (s : RelexState α) : Option (RelexState α) :=
  (lexer.step s.txt).map fun (token, txt) =>
    { s with txt := txt, newLen := s.newLen + token.len, new := s.new ++ [token] }

/-- Takes one old token and drops it: `fall/parse/src/lex_engine.rs` 64, 92-93. -/
def RelexState.skipOld (s : RelexState α) : Option (RelexState α) :=
  match s.old with
  | [] => none
  | token :: old => some { s with old := old, oldLen := s.oldLen + token.len }

/-- `fall/parse/src/lex_engine.rs` 57-61, with an iteration budget. -/
def lexTo (lexer : Lexer α) (editPoint : Nat) : Nat → RelexState α → Option (RelexState α)
  | fuel, s =>
    if s.newLen < editPoint then
      match fuel with
      | 0 => none
      | fuel + 1 => (s.stepNew lexer).bind (lexTo lexer editPoint fuel)
    else some s

/-- `fall/parse/src/lex_engine.rs` 63-65, with an iteration budget. -/
def skipTo (start : Nat) : Nat → RelexState α → Option (RelexState α)
  | fuel, s =>
    if s.oldLen < start then
      match fuel with
      | 0 => none
      | fuel + 1 => s.skipOld.bind (skipTo start fuel)
    else some s

/-- `fall/parse/src/lex_engine.rs` 81-89: old tokens are taken over as long as they end before the
end of the copied range. Note that `txt` is not advanced. -/
def reuse (stop : Nat) : List Token → RelexState α → RelexState α
  | [], s => { s with old := [] }
  | token :: old, s =>
    let s := { s with old := old, oldLen := s.oldLen + token.len }
    if s.oldLen ≥ stop then s
    else reuse stop old
      { s with
        reused := s.reused + token.len
        newLen := s.newLen + token.len
        new := s.new ++ [token] }

/-- `fall/parse/src/lex_engine.rs` 67-96, with an iteration budget. The subtractions of lines 68-69
panic on underflow. -/
def syncLoop (lexer : Lexer α) (editPoint : Nat) (range : TextRange) :
    Nat → RelexState α → Option (RelexState α)
  | fuel, s =>
    if s.newLen < editPoint ∨ s.oldLen < range.start then none
    else
      let newConsumed := s.newLen - editPoint
      let oldConsumed := s.oldLen - range.start
      if newConsumed ≥ range.len ∨ oldConsumed ≥ range.len then some s
      else match fuel with
        | 0 => none
        | fuel + 1 =>
          match compare newConsumed oldConsumed with
          | .lt => (s.stepNew lexer).bind (syncLoop lexer editPoint range fuel)
          | .eq => syncLoop lexer editPoint range fuel (reuse range.stop s.old s)
          | .gt => s.skipOld.bind (syncLoop lexer editPoint range fuel)

/-- `fall/parse/src/lex_engine.rs` 50-101: the loop over the edit operations; returns the final
state. `fuel` bounds the iterations of each inner loop. -/
def relexOps (lexer : Lexer α) (newText : List α) (fuel : Nat) :
    List (TextEditOp α) → Nat → RelexState α → Option (RelexState α)
  | [], _, s => some s
  | .insert buf :: ops, editPoint, s => relexOps lexer newText fuel ops (editPoint + buf.length) s
  | .copy range :: ops, editPoint, s =>
    -- line 56: the suffix of the new text from `new_len`
    if s.newLen ≤ newText.length then
      (lexTo lexer editPoint fuel { s with txt := newText.drop s.newLen }).bind fun s =>
      (skipTo range.start fuel s).bind fun s =>
      (syncLoop lexer editPoint range fuel s).bind fun s =>
      relexOps lexer newText fuel ops (editPoint + range.len) s
    else none

/-- `fall/parse/src/lex_engine.rs` 30-109. Each inner loop gets as many iterations as there are
bytes in the new text plus old tokens; every iteration of the code consumes one or the other. -/
def relex (lexer : Lexer α) (oldTokens : List Token) (edit : TextEdit α) (newText : List α) :
    Option (List Token × Nat) :=
  if oldTokens.any (fun token => token.ty == ERROR) then
    (lex lexer newText).map fun ts => (ts, 0)
  else
    let fuel := newText.length + oldTokens.length
    (relexOps lexer newText fuel edit.ops 0 ⟨oldTokens, 0, [], 0, [], 0⟩).bind fun s =>
      if s.newLen ≤ newText.length then
        (lexLoop lexer (newText.length - s.newLen) (newText.drop s.newLen) s.new).bind fun new =>
          -- line 107
          if s.reused ≤ newText.length then some (new, newText.length - s.reused) else none
      else none

end Fall
