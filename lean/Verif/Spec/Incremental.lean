import Verif.Model.Incremental
import Verif.Spec.Runs
import Verif.Spec.Convert

/-!
Vocabulary for properties of reparsing.
-/

namespace Fall.Spec

/-- The direct parts of an expression. -/
def parts : Expr → List Nat
  | .pub _ e _ | .pubReplace _ e | .rep e | .opt e | .not e | .enter _ e | .exit _ e | .call e _
  | .cached e => [e]
  | .or es | .and es _ => es
  | .withSkip a b | .layer a b | .inject a b => [a, b]
  | .pratt table => table.atoms ++ table.prefixes.map (·.op) ++ table.infixes.map (·.op)
  | .token _ | .contextualToken _ _ | .eof | .any | .isIn _ | .var _ | .prevIs _ => []

/-- An expression passed as an argument somewhere. -/
def Passed (g : Grammar) (a : Nat) : Prop :=
  ∃ (e body : Nat) (args : List (Nat × Nat)) (i : Nat), g.rules[e]? = some (.call body args) ∧ (i, a) ∈ args

/-- Expressions that may be run in lookahead or inside of a layer. -/
inductive Confined (g : Grammar) : Nat → Prop
  | not {e l : Nat} : g.rules[e]? = some (.not l) → Confined g l
  | skip {e l body : Nat} : g.rules[e]? = some (.withSkip l body) → Confined g l
  | bound {e l body : Nat} : g.rules[e]? = some (.layer l body) → Confined g l
  | layer {e l body : Nat} : g.rules[e]? = some (.layer l body) → Confined g body
  | part {e p : Nat} {rule : Expr} : Confined g e → g.rules[e]? = some rule → p ∈ parts rule → Confined g p
  | arg {e i a : Nat} : Confined g e → g.rules[e]? = some (.var i) → Passed g a → Confined g a

/-- Cached rules are run neither in lookahead nor inside of layers, and there are no rules that
depend on what happened before them: no `prev_is` and no rule that replaces a node. -/
structure CacheFriendly (g : Grammar) : Prop where
  free : ∀ e body : Nat, g.rules[e]? = some (.cached body) → ¬ Confined g e
  noPrev : ∀ tys, .prevIs tys ∉ g.rules
  noReplace : ∀ ty body, .pubReplace ty body ∉ g.rules

/-- Every entry of the cache for a cached rule at the beginning of a significant token is what running
the rule there without the cache amounts to, from any state outside of lookahead: the events of the
entry are appended and its number of tokens consumed. -/
def SoundCache (env : Env) : Prop :=
  ∀ cache evs, env.cache = some (cache, evs) → ∀ e body : Nat, env.grammar.rules[e]? = some (.cached body) →
    ∀ cur off k a nE nT : Nat, env.nonWs[cur]? = some (off, k) →
    cache.lookup (off, body) = some (a, nE, nT) → ∀ s r s', s.predicate = false →
    Runs { env with cache := none } body ⟨cur, env.nonWs.length⟩ s r s' →
      a + nE ≤ evs.length ∧ r = some ⟨cur + nT, env.nonWs.length⟩ ∧
        s'.events = s.events ++ (evs.drop a).take nE

/-- Where significant token number `c` begins; the length of all tokens if there is no such token. -/
def sigOffset (isWs : NodeType → Bool) : List Token → Nat → Nat
  | [], _ => 0
  | t :: ts, c =>
    if isWs t.ty then t.len + sigOffset isWs ts c
    else match c with
      | 0 => 0
      | c + 1 => t.len + sigOffset isWs ts c

/-- The copies of a script are in order from `offset` on and do not overlap. -/
def OrderedCopies : Nat → List (TextEditOp α) → Prop
  | _, [] => True
  | offset, .copy r :: ops => offset ≤ r.start ∧ OrderedCopies r.stop ops
  | offset, .insert _ :: ops => OrderedCopies offset ops

/-- Each mark of a reusable fragment is followed by at least as many events as it says. -/
def MarksFit : List Event → Prop
  | [] => True
  | .cached _ n :: es => n ≤ es.length ∧ MarksFit es
  | _ :: es => MarksFit es

/-- What an editor goes through: a file is parsed and then reparsed after each of a number of edits, with
any budgets. `Session d text file data`: the current text, and file and data of the last parse. -/
inductive Session (d : Definition) : List Nat → File Nat → Definition.IncrementalData → Prop
  | parse {n text file data} : d.parse n text = .ok (file, data) → Session d text file data
  | edit {n text file data text' file' data'} (edit : TextEdit Nat) : Session d text file data →
      edit.apply (Text.ofBuf text) = some text' → d.reparse n text data edit = .ok (file', data') →
      Session d text' file' data'

end Fall.Spec
