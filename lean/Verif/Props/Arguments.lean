import Verif.Lemmas.Arguments
import Verif.Lemmas.SynFuel
import Verif.Model.RustGrammar
import Verif.Model.Languages

/-!
C102: what the arguments of rules mean.
-/

namespace Fall

open Spec Parser

theorem newArgs_length {g : Grammar} {as : List (Nat × Nat)} {A B : List (Option Nat)} (h : newArgs g as A = some B) :
    B.length = A.length := by
  induction as generalizing A with
  | nil => cases h; rfl
  | cons x as ih =>
    obtain ⟨p, arg⟩ := x
    simp only [newArgs, Option.bind_eq_bind, Option.bind_eq_some_iff] at h
    obtain ⟨x, -, h⟩ := h
    split at h
    · simpa using ih h
    · cases h

theorem newArgs_other {g : Grammar} {as : List (Nat × Nat)} {A B : List (Option Nat)} (h : newArgs g as A = some B)
    {q : Nat} (hq : ∀ a, (q, a) ∉ as) : B[q]? = A[q]? := by
  induction as generalizing A with
  | nil => cases h; rfl
  | cons x as ih =>
    obtain ⟨p, arg⟩ := x
    simp only [newArgs, Option.bind_eq_bind, Option.bind_eq_some_iff] at h
    obtain ⟨x, -, h⟩ := h
    split at h
    · rw [ih h fun a ha => hq a (by simp [ha]), List.getElem?_set_ne]
      rintro rfl
      exact hq arg (by simp)
    · cases h

theorem newArgs_last {g : Grammar} {l r : List (Nat × Nat)} {p a : Nat} {A B : List (Option Nat)}
    (h : newArgs g (l ++ (p, a) :: r) A = some B) (hr : ∀ x, (p, x) ∉ r)
    (ha : ∀ i, g.rules[a]? = some (.var i) → ∀ x, (i, x) ∉ l) : ∃ x, argValue g A a = some x ∧ B[p]? = some (some x) := by
  induction l generalizing A with
  | nil =>
    simp only [List.nil_append, newArgs, Option.bind_eq_bind, Option.bind_eq_some_iff] at h
    obtain ⟨x, hx, h⟩ := h
    split at h
    · rename_i hp
      exact ⟨x, hx, by rw [newArgs_other h hr]; simp [hp]⟩
    · cases h
  | cons y l ih =>
    obtain ⟨q, b⟩ := y
    simp only [List.cons_append, newArgs, Option.bind_eq_bind, Option.bind_eq_some_iff] at h
    obtain ⟨z, -, h⟩ := h
    split at h
    · obtain ⟨x, h1, h2⟩ := ih h fun i hi x hx => ha i hi x (by simp [hx])
      refine ⟨x, ?_, h2⟩
      rw [← h1]
      unfold argValue
      split
      · rfl
      · rename_i i hi
        rw [List.getElem?_set_ne]
        rintro rfl
        exact ha _ hi b (by simp)
      · rfl
    · cases h

theorem parseVar_value {env : Env} {n p x : Nat} {pos : Pos} {s : PState} (h : s.args[p]? = some (some x)) :
    parseVar (parseExpr env n) pos p s = parseExpr env n x pos s := by
  show P.bind (P.lift s.args[p]?.join) _ _ = _
  rw [h]
  rfl

/-- C102. What an expression does depends only on the parameters that it reaches: with the same values for these it
reads the same tokens, produces the same events and ends in the same state. -/
theorem C102_scope (env : Env) (n e : Nat) (pos : Pos) (s : PState) (args : List (Option Nat))
    (hl : args.length = s.args.length)
    (hs : ∀ i, Reaches env.grammar s.args e i → args[i]? = s.args[i]?) :
    parseExpr env n e pos { s with args := args } = withArgs args (parseExpr env n e pos s) := by
  have ha : Agree env.grammar (Reaches env.grammar s.args e) s.args args :=
    ⟨hl.symm, fun i hi => (hs i hi).symm, fun i a hi ha k hk => .value hi ha hk⟩
  exact (parseExpr_argSim env n ha (fun i hi => .mentions hi) pos s rfl).1

/-- C102. The full claim is that an argument means in the called rule what it means at the call. It holds for arguments
that do not reach the parameters of the rule: where the rule mentions the parameter, exactly that happens what would
happen if the argument stood at the place of the call. What is missing are arguments that reach the parameters of the rule
that is called, for which the claim is false. -/
theorem C102_argument_partial (env : Env) (n : Nat) (pos : Pos) (s s' : PState) (l r : List (Nat × Nat)) (p a : Nat)
    (h : setArgs env (l ++ (p, a) :: r) s = .ok () s') (hr : ∀ x, (p, x) ∉ r)
    (hn : ∀ i, env.grammar.rules[a]? ≠ some (.var i))
    (hfree : ∀ i, Reaches env.grammar s.args a i → ∀ x, (i, x) ∉ l ++ (p, a) :: r) :
    parseVar (parseExpr env n) pos p s' = withArgs s'.args (parseExpr env n a pos s) := by
  rw [setArgs_eq] at h
  cases hB : newArgs env.grammar (l ++ (p, a) :: r) s.args with
  | none => rw [hB] at h; cases h
  | some B =>
    rw [hB] at h
    cases h
    obtain ⟨x, hx, hp⟩ := newArgs_last hB hr fun i hi => absurd hi (hn i)
    obtain rfl : x = a := by
      unfold argValue at hx
      split at hx
      · cases hx
      · rename_i i hi; exact absurd hi (hn i)
      · cases hx; rfl
    rw [parseVar_value hp]
    exact C102_scope env n x pos s B (newArgs_length hB) fun j hj => newArgs_other hB (hfree j hj)

/-- C102. A parameter that is passed on means in the called rule what it means at the call, if its value does not reach
the parameters of the rule, and none of the arguments before it is for that parameter. -/
theorem C102_passed_partial (env : Env) (n : Nat) (pos : Pos) (s s' : PState) (l r : List (Nat × Nat)) (p a i x : Nat)
    (h : setArgs env (l ++ (p, a) :: r) s = .ok () s') (hr : ∀ x, (p, x) ∉ r)
    (hi : env.grammar.rules[a]? = some (.var i)) (hl : ∀ x, (i, x) ∉ l) (hx : s.args[i]? = some (some x))
    (hfree : ∀ i, Reaches env.grammar s.args x i → ∀ y, (i, y) ∉ l ++ (p, a) :: r) :
    parseVar (parseExpr env n) pos p s' = withArgs s'.args (parseVar (parseExpr env n) pos i s) := by
  rw [setArgs_eq] at h
  cases hB : newArgs env.grammar (l ++ (p, a) :: r) s.args with
  | none => rw [hB] at h; cases h
  | some B =>
    rw [hB] at h
    cases h
    obtain ⟨y, hy, hp⟩ := newArgs_last hB hr fun j hj => by
      rw [hi] at hj
      cases hj
      exact hl
    obtain rfl : y = x := by
      simp only [argValue, hi, hx] at hy
      cases hy
      rfl
    rw [parseVar_value hp, parseVar_value hx]
    exact C102_scope env n y pos s B (newArgs_length hB) fun j hj => newArgs_other hB (hfree j hj)

/-- C102. In a grammar all of whose arguments are parameters that are passed on or mention no parameters, the full claim
holds: in every call every argument means in the rule what it means at the call, and the values of the parameters stay
such that this holds for the calls in the rule too. -/
theorem C102_plain (env : Env) (hg : PlainArguments env.grammar) (e body : Nat) (as : List (Nat × Nat))
    (he : env.grammar.rules[e]? = some (.call body as)) (s s' : PState) (hs : ClosedArgs env.grammar s.args)
    (h : setArgs env as s = .ok () s') :
    ClosedArgs env.grammar s'.args ∧
    ∀ p a, (p, a) ∈ as → ∀ n pos,
      (∀ i, env.grammar.rules[a]? = some (.var i) →
        parseVar (parseExpr env n) pos p s' = withArgs s'.args (parseVar (parseExpr env n) pos i s)) ∧
      ((∀ i, env.grammar.rules[a]? ≠ some (.var i)) →
        parseVar (parseExpr env n) pos p s' = withArgs s'.args (parseExpr env n a pos s)) := by
  obtain ⟨hd, hpl⟩ := hg e body as he
  have none_of : ∀ x, (∀ i, ¬ Mentions env.grammar x i) → ∀ i, ¬ Reaches env.grammar s.args x i := by
    intro x hx i hi
    induction hi with
    | mentions h => exact hx _ h
    | value _ _ _ ih => exact ih
  have hlast : ∀ p a, (p, a) ∈ as → ∃ l r, as = l ++ (p, a) :: r ∧ (∀ x, (p, x) ∉ r) := by
    intro p a ha
    obtain ⟨l, r, rfl⟩ := List.append_of_mem ha
    refine ⟨l, r, rfl, fun x hx => ?_⟩
    rw [List.map_append, List.map_cons, List.nodup_append, List.nodup_cons] at hd
    exact hd.2.1.1 (List.mem_map.2 ⟨(p, x), hx, rfl⟩)
  have hval : ∀ l p a r, as = l ++ (p, a) :: r → ∀ i, env.grammar.rules[a]? = some (.var i) → ∀ x, (i, x) ∉ l := by
    intro l p a r e i hi
    rcases hpl l p a r e with ⟨j, hj, h⟩ | ⟨h, -⟩
    · rw [hi] at hj
      cases hj
      exact h
    · exact absurd hi (h i)
  have h' := h
  rw [setArgs_eq] at h'
  cases hB : newArgs env.grammar as s.args with
  | none => rw [hB] at h'; cases h'
  | some B =>
    rw [hB] at h'
    cases h'
    have hvalue : ∀ p a, (p, a) ∈ as → ∃ x, argValue env.grammar s.args a = some x ∧ B[p]? = some (some x) := by
      intro p a ha
      obtain ⟨l, r, rfl, hr⟩ := hlast p a ha
      exact newArgs_last hB hr (hval l p a r rfl)
    refine ⟨?_, fun p a ha n pos => ?_⟩
    · intro q x hq i
      by_cases hb : ∃ a, (q, a) ∈ as
      · obtain ⟨a, ha⟩ := hb
        obtain ⟨y, hy, hy'⟩ := hvalue q a ha
        have hq' : B[q]? = some (some x) := hq
        rw [hy'] at hq'
        cases hq'
        obtain ⟨l, r, e, -⟩ := hlast q a ha
        rcases hpl l q a r e with ⟨j, hj, -⟩ | ⟨h1, h2⟩
        · simp only [argValue, hj] at hy
          exact hs j x (Option.join_eq_some_iff.1 hy) i
        · unfold argValue at hy
          split at hy
          · cases hy
          · rename_i j hj; exact absurd hj (h1 j)
          · cases hy; exact h2 i
      · rw [newArgs_other hB fun a ha => hb ⟨a, ha⟩] at hq
        exact hs q x hq i
    · obtain ⟨l, r, rfl, hr⟩ := hlast p a ha
      constructor
      · intro i hi
        obtain ⟨x, hx, -⟩ := hvalue p a ha
        simp only [argValue, hi] at hx
        have hx := Option.join_eq_some_iff.1 hx
        exact C102_passed_partial env n pos s _ l r p a i x h hr hi (hval l p a r rfl i hi) hx
          fun j hj => absurd hj (none_of x (hs i x hx) j)
      · intro hn
        rcases hpl l p a r rfl with ⟨j, hj, -⟩ | ⟨-, h2⟩
        · exact absurd hj (hn j)
        · exact C102_argument_partial env n pos s _ l r p a h hr hn fun j hj => absurd hj (none_of a h2 j)

/-! ## The grammars for Fall and Rust -/

/-- The parameters listed for an expression. -/
def listed (cert : List (Nat × List Nat)) (e : Nat) : List Nat := (cert.lookup e).getD []

/-- The list has all parameters that are mentioned. -/
def listsMentions (cert : List (Nat × List Nat)) (g : Grammar) : Bool :=
  g.rules.zipIdx.all fun x => match x.1 with
    | .var i => (listed cert x.2).contains i
    | .call b as =>
      (listed cert b).all (fun i => as.any (fun a => a.1 == i) || (listed cert x.2).contains i) &&
        as.all fun a => (listed cert a.2).all (listed cert x.2).contains
    | y => (components y).all fun c => (listed cert c).all (listed cert x.2).contains

theorem listsMentions_sound {cert : List (Nat × List Nat)} {g : Grammar} (h : listsMentions cert g = true) {e i : Nat}
    (hm : Mentions g e i) : i ∈ listed cert e := by
  have key : ∀ {e x}, g.rules[e]? = some x → (x, e) ∈ g.rules.zipIdx := fun hx =>
    List.mem_zipIdx_iff_getElem?.2 hx
  unfold listsMentions at h
  rw [List.all_eq_true] at h
  induction hm with
  | var hx => simpa using h _ (key hx)
  | @component e x c i hx hc _ ih =>
    have := h _ (key hx)
    cases x <;> simp only [components, List.not_mem_nil] at hc <;>
      · simp only [List.all_eq_true, List.contains_iff_mem] at this
        exact this _ hc _ ih
  | rule hx _ hn ih =>
    have := h _ (key hx)
    simp only [Bool.and_eq_true, List.all_eq_true, Bool.or_eq_true, List.any_eq_true, List.contains_iff_mem,
      beq_iff_eq] at this
    rcases this.1 _ ih with ⟨⟨p, a⟩, ha, rfl⟩ | h
    · exact absurd ha (hn a)
    · exact h
  | argument hx ha _ ih =>
    have := h _ (key hx)
    simp only [Bool.and_eq_true, List.all_eq_true, List.contains_iff_mem] at this
    exact this.2 _ ha _ ih

/-- Every argument is passed on from a parameter for which there is no argument before it, or nothing is listed for it. -/
def plainFrom (cert : List (Nat × List Nat)) (g : Grammar) : List Nat → List (Nat × Nat) → Bool
  | _, [] => true
  | before, (p, a) :: as =>
    !before.contains p &&
    (match g.rules[a]? with
      | some (.var i) => !before.contains i
      | _ => (listed cert a).isEmpty) &&
    plainFrom cert g (p :: before) as

theorem plainFrom_sound {cert : List (Nat × List Nat)} {g : Grammar} (hl : listsMentions cert g = true)
    {as : List (Nat × Nat)} {before : List Nat} (h : plainFrom cert g before as = true) :
    (as.map (·.1)).Nodup ∧ (∀ p ∈ as.map (·.1), p ∉ before) ∧ ∀ l p a r, as = l ++ (p, a) :: r →
      (∃ i, g.rules[a]? = some (.var i) ∧ i ∉ before ∧ ∀ x, (i, x) ∉ l) ∨
      ((∀ i, g.rules[a]? ≠ some (.var i)) ∧ ∀ i, ¬ Mentions g a i) := by
  induction as generalizing before with
  | nil => exact ⟨by simp, by simp, fun l p a r e => by simp at e⟩
  | cons x as ih =>
    obtain ⟨p, a⟩ := x
    simp only [plainFrom, Bool.and_eq_true, Bool.not_eq_true', List.contains_eq_mem, decide_eq_false_iff_not] at h
    obtain ⟨⟨h1, h2⟩, h3⟩ := h
    obtain ⟨i1, i2, i3⟩ := ih h3
    refine ⟨?_, ?_, ?_⟩
    · rw [List.map_cons, List.nodup_cons]
      exact ⟨fun hm => i2 p hm (by simp), i1⟩
    · intro q hq
      simp only [List.map_cons, List.mem_cons] at hq
      rcases hq with rfl | hq
      · exact h1
      · exact fun hb => i2 q hq (by simp [hb])
    · intro l q b r e
      cases l with
      | nil =>
        simp only [List.nil_append, List.cons.injEq, Prod.mk.injEq] at e
        obtain ⟨⟨rfl, rfl⟩, rfl⟩ := e
        cases hr : g.rules[a]? with
        | none =>
          refine .inr ⟨fun i h => by simp at h, fun i hm => ?_⟩
          have := listsMentions_sound hl hm
          rw [hr] at h2
          simp only [List.isEmpty_iff] at h2
          simp [h2] at this
        | some y =>
          by_cases hv : ∃ i, y = .var i
          · obtain ⟨i, rfl⟩ := hv
            rw [hr] at h2
            exact .inl ⟨i, rfl, by simpa using h2, by simp⟩
          · refine .inr ⟨fun i h => hv ⟨i, by simpa using h⟩, fun i hm => ?_⟩
            have := listsMentions_sound hl hm
            have h2' : (listed cert a).isEmpty = true := by
              rw [hr] at h2
              cases y <;> first | exact h2 | exact absurd ⟨_, rfl⟩ hv
            simp only [List.isEmpty_iff] at h2'
            simp [h2'] at this
      | cons y l =>
        simp only [List.cons_append, List.cons.injEq] at e
        obtain ⟨rfl, e⟩ := e
        rcases i3 l q b r e with ⟨i, g1, g2, g3⟩ | h
        · simp only [List.mem_cons, not_or] at g2
          refine .inl ⟨i, g1, g2.2, fun x hx => ?_⟩
          simp only [List.mem_cons, Prod.mk.injEq] at hx
          rcases hx with ⟨hx, -⟩ | hx
          · exact g2.1 hx
          · exact g3 x hx
        · exact .inr h

/-- All calls. -/
def plainCalls (cert : List (Nat × List Nat)) (g : Grammar) : Bool :=
  listsMentions cert g && g.rules.all fun x => match x with
    | .call _ as => plainFrom cert g [] as
    | _ => true

theorem plainCalls_sound {cert : List (Nat × List Nat)} {g : Grammar} (h : plainCalls cert g = true) :
    PlainArguments g := by
  simp only [plainCalls, Bool.and_eq_true] at h
  intro e body as he
  have := List.all_eq_true.1 h.2 _ (List.mem_of_getElem? he)
  obtain ⟨h1, -, h3⟩ := plainFrom_sound h.1 this
  refine ⟨h1, fun l p a r e => ?_⟩
  rcases h3 l p a r e with ⟨i, g1, -, g3⟩ | h
  · exact .inl ⟨i, g1, g3⟩
  · exact .inr h

/-- The parameters of the grammar for Rust. -/
def rustMentions : List (Nat × List Nat) :=
  [(78, [0]), (127, [1]), (150, [2]), (151, [3]), (152, [4]), (153, [5]), (154, [6]), (155, [7, 8, 9]), (156,
  [10, 11]), (888, [0]), (889, [0]), (890, [0]), (891, [0]), (1192, [1]), (1193, [1]), (1196, [1]), (1197, [1]),
  (1364, [2]), (1370, [2]), (1371, [2]), (1372, [2]), (1373, [2]), (1376, [3]), (1377, [3]), (1378, [3]), (1381,
  [4]), (1382, [4]), (1383, [4]), (1386, [5]), (1387, [5]), (1388, [5]), (1391, [6]), (1392, [6]), (1393, [6]),
  (1394, [7]), (1395, [7]), (1396, [8]), (1397, [7, 8]), (1398, [9]), (1399, [7, 8, 9]), (1400, [8]), (1401, [7,
  8, 9]), (1402, [10]), (1403, [10]), (1404, [11]), (1405, [10, 11]), (1406, [11]), (1407, [10, 11]), (1408,
  [11]), (1409, [11]), (1411, [11]), (1412, [11]), (1413, [11]), (1414, [10, 11]), (1415, [10, 11]), (1416, [10,
  11])]

/-- The parameters of the grammar for Fall. -/
def fallMentions : List (Nat × List Nat) :=
  [(20, [0]), (21, [1]), (25, [2, 3]), (158, [0]), (164, [0]), (165, [0]), (166, [0]), (167, [0]), (169, [1]),
  (170, [1]), (172, [1]), (185, [2]), (186, [2]), (187, [3]), (188, [2, 3]), (189, [3]), (190, [2, 3]), (191,
  [3]), (192, [3]), (194, [3]), (195, [3]), (196, [3]), (197, [2, 3]), (198, [2, 3]), (199, [2, 3])]

/-- C102. The grammar for Rust is of this kind. -/
theorem C102_rust : PlainArguments rustGrammar :=
  plainCalls_sound (cert := rustMentions) (by decide +kernel)

/-- C102. The grammar for Fall is of this kind. -/
theorem C102_fall : PlainArguments fallGrammar :=
  plainCalls_sound (cert := fallMentions) (by decide +kernel)

/-! ## Examples -/

/-- The rules of `rule file { <nest b> } rule nest(x) { x | '(' <nest { a x }> }`; the inner `x` is expression `i`. -/
def nestGrammar (i : Nat) : Grammar := ⟨[0, 100, 101, 102, 103],
  [.pub 4 1 false, .call 2 [(0, 5)], .or [3, 4], .and [8] none, .and [6, 7] none, .token 2, .token 3, .call 2 [(0, 9)],
   .var 0, .and [10, i] none, .token 1], 0⟩

/-- `(ab`. -/
def nestTokens : List Token := [⟨102, 1⟩, ⟨100, 1⟩, ⟨101, 1⟩]

/-- C102, counterexample to "an argument means in the called rule what it means at the call". The rule `nest` is called
with `b`, so `x` at the inner call is `b` and the inner call with `{ a x }` should read `ab`, as it does with `{ a b }`
written out. Instead `x` in the argument is the parameter of the inner call, so the argument contains itself and `(ab` is
not read: the program panics. -/
theorem C102_argument_counterexample :
    (∀ n, 20 ≤ n → synParse (Env.new none (nestGrammar 8) (fun _ => false) [40, 97, 98] nestTokens) n = .panic) ∧
    (∀ n, 20 ≤ n → ∃ ticks, synParse (Env.new none (nestGrammar 5) (fun _ => false) [40, 97, 98] nestTokens) n =
      .ok ([.start 103 none, .token 102 1, .token 100 1, .token 101 1, .fin], ticks)) := by
  have h1 : synParse (Env.new none (nestGrammar 8) (fun _ => false) [40, 97, 98] nestTokens) 20 = .panic := by
    decide +kernel
  have h2 : (match synParse (Env.new none (nestGrammar 5) (fun _ => false) [40, 97, 98] nestTokens) 20 with
      | .ok (es, _) => some es
      | _ => none) = some [.start 103 none, .token 102 1, .token 100 1, .token 101 1, .fin] := by
    decide +kernel
  constructor
  · intro n hn
    rcases synParse_le (Env.new none (nestGrammar 8) (fun _ => false) [40, 97, 98] nestTokens) hn with h | h
    · rw [h1] at h; cases h
    · rw [h, h1]
  · intro n hn
    cases h3 : synParse (Env.new none (nestGrammar 5) (fun _ => false) [40, 97, 98] nestTokens) 20 with
    | ok x =>
      obtain ⟨es, ticks⟩ := x
      rw [h3] at h2
      simp only [Option.some.injEq] at h2
      subst h2
      rcases synParse_le (Env.new none (nestGrammar 5) (fun _ => false) [40, 97, 98] nestTokens) hn with h | h
      · rw [h3] at h; cases h
      · exact ⟨ticks, by rw [h, h3]⟩
    | panic => rw [h3] at h2; cases h2
    | timeout => rw [h3] at h2; cases h2

/-- The argument `{ a x }` of the inner call reaches the parameter of the rule. -/
example : Reaches (nestGrammar 8) [some 5] 9 0 :=
  .mentions (.component (x := .and [10, 8] none) (c := 8) rfl (by simp [components]) (.var rfl))

/-- The argument `{ a b }` reaches nothing, and `C102_argument_partial` is about it. -/
example : let env := Env.new none (nestGrammar 5) (fun _ => false) [40, 97, 98] nestTokens
    let s := { PState.new with args := [some 5] }
    (∃ s', setArgs env ([] ++ (0, 9) :: []) s = .ok () s' ∧ s'.args = [some 9]) ∧
    ∀ i, ¬ Reaches env.grammar s.args 9 i := by
  refine ⟨⟨_, rfl, rfl⟩, ?_⟩
  have h5 : ∀ i, ¬ Mentions (nestGrammar 5) 5 i := by
    intro i h
    cases h with
    | var h => cases h
    | component h hc _ => cases h; simp [components] at hc
    | rule h => cases h
    | argument h => cases h
  have h10 : ∀ i, ¬ Mentions (nestGrammar 5) 10 i := by
    intro i h
    cases h with
    | var h => cases h
    | component h hc _ => cases h; simp [components] at hc
    | rule h => cases h
    | argument h => cases h
  have h9 : ∀ i, ¬ Mentions (nestGrammar 5) 9 i := by
    intro i h
    cases h with
    | var h => cases h
    | component h hc h' =>
      cases h
      simp only [components, List.mem_cons, List.not_mem_nil, or_false] at hc
      rcases hc with rfl | rfl
      · exact h10 i h'
      · exact h5 i h'
    | rule h => cases h
    | argument h => cases h
  intro i h
  induction h with
  | mentions h => exact h9 _ h
  | value _ _ _ ih => exact ih

/-- The first state has no values of parameters at all. -/
example : ClosedArgs rustGrammar PState.new.args := by
  intro i a h
  have := List.mem_of_getElem? h
  simp [PState.new] at this

/-- A call in the grammar for Rust that passes on two parameters. -/
example : rustGrammar.rules[1397]? = some (.call 156 [(10, 1395), (11, 1396)]) ∧
    rustGrammar.rules[1395]? = some (.var 7) := by decide +kernel

end Fall
