import Verif.Spec.Peg

/-!
Vocabulary for matching brackets.
-/

namespace Fall.Spec

/-- No closing bracket without an opening one before it: read from the left, there are never more
closing than opening brackets. -/
def NoneClosed (bra ket : NodeType) (xs : List NodeType) : Prop :=
  ∀ m, (xs.take m).count ket ≤ (xs.take m).count bra

/-- The first `n` types are up to the first closing bracket that does not belong to an opening one, which
is then number `n`, or all of them if there is no such bracket. -/
structure ClosesAt (bra ket : NodeType) (xs : List NodeType) (n : Nat) : Prop where
  le : n ≤ xs.length
  before : NoneClosed bra ket (xs.take n)
  close : n < xs.length → xs[n]? = some ket ∧ (xs.take n).count ket = (xs.take n).count bra

/-- The rule `balanced` with the parameters number `i` and `j`, as in
`rule balanced(bra, ket) { { bra <balanced bra ket> ket | {<not ket> <any>} }* }`, possibly with a commit
after `bra`. -/
structure BalancedRule (g : Grammar) (e i j : Nat) (commit : Option Nat) : Prop where
  shape : ∃ body loop alt nested single inner skip bra recur ket bra' ket' no any ket'' : Nat,
    g.rules[e]? = some (.or [body]) ∧ g.rules[body]? = some (.and [loop] none) ∧
    g.rules[loop]? = some (.rep alt) ∧ g.rules[alt]? = some (.or [nested, single]) ∧
    g.rules[nested]? = some (.and [bra, recur, ket] commit) ∧ g.rules[bra]? = some (.var i) ∧
    g.rules[recur]? = some (.call e [(i, bra'), (j, ket')]) ∧ g.rules[ket]? = some (.var j) ∧
    g.rules[bra']? = some (.var i) ∧ g.rules[ket']? = some (.var j) ∧
    g.rules[single]? = some (.and [inner] none) ∧ g.rules[inner]? = some (.or [skip]) ∧
    g.rules[skip]? = some (.and [no, any] none) ∧ g.rules[no]? = some (.not ket'') ∧
    g.rules[ket'']? = some (.var j) ∧ g.rules[any]? = some .any
  commits : commit = none ∨ commit = some 1

/-- Expression number `e` is a token of type `t`. -/
def IsToken (g : Grammar) (e : Nat) (t : NodeType) : Prop :=
  ∃ ty : Nat, g.rules[e]? = some (.token ty) ∧ g.nodeTypes[ty]? = some t

end Fall.Spec
