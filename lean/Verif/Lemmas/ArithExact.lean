import Verif.Lemmas.Arith
import Verif.Lemmas.Strict
import Verif.Lemmas.Exact

/-!
What the parser of arithmetic expressions reads without errors.
-/

namespace Fall

open Spec

namespace Arithmetic

/-! ## Parentheses where they are needed -/

/-- Every expression reads the same as one with parentheses where they are needed. -/
theorem fact_regroup : (a : Arith) → a.Proper →
    ∃ b : Arith, b.Proper ∧ b.tokens = a.tokens ++ [106] ∧ b.level = min a.level 4
  | .num, _ => ⟨.fact .num, ⟨by decide, trivial⟩, rfl, rfl⟩
  | .paren a, h => ⟨.fact (.paren a), ⟨by simp [Arith.level], h⟩, rfl, rfl⟩
  | .fact a, h => ⟨.fact (.fact a), ⟨by simp [Arith.level], h⟩, rfl, rfl⟩
  | .neg a, h => by
    obtain ⟨b, h1, h2, h3⟩ := fact_regroup a h.2
    refine ⟨.neg b, ⟨?_, h1⟩, by simp [Arith.tokens, h2], rfl⟩
    have := h.1
    omega
  | .sum m l r, h => by
    obtain ⟨b, h1, h2, h3⟩ := fact_regroup r h.2.2
    refine ⟨.sum m l b, ⟨?_, h.2.1, h1⟩, by simp [Arith.tokens, h2], rfl⟩
    have := h.1
    omega
  | .prod d l r, h => by
    obtain ⟨b, h1, h2, h3⟩ := fact_regroup r h.2.2.2
    refine ⟨.prod d l b, ⟨h.1, ?_, h.2.2.1, h1⟩, by simp [Arith.tokens, h2], rfl⟩
    have := h.2.1
    omega

theorem neg_regroup : (a : Arith) → a.Proper →
    ∃ b : Arith, b.Proper ∧ b.tokens = 103 :: a.tokens ∧ b.level = min a.level 3
  | .num, _ => ⟨.neg .num, ⟨by decide, trivial⟩, rfl, rfl⟩
  | .paren a, h => ⟨.neg (.paren a), ⟨by simp [Arith.level], h⟩, rfl, rfl⟩
  | .fact a, h => ⟨.neg (.fact a), ⟨by simp [Arith.level], h⟩, rfl, rfl⟩
  | .neg a, h => ⟨.neg (.neg a), ⟨by simp [Arith.level], h⟩, rfl, rfl⟩
  | .sum m l r, h => by
    obtain ⟨b, h1, h2, h3⟩ := neg_regroup l h.2.1
    exact ⟨.sum m b r, ⟨h.1, h1, h.2.2⟩, by simp [Arith.tokens, h2], rfl⟩
  | .prod d l r, h => by
    obtain ⟨b, h1, h2, h3⟩ := neg_regroup l h.2.2.1
    refine ⟨.prod d b r, ⟨?_, h.2.1, h1, h.2.2.2⟩, by simp [Arith.tokens, h2], rfl⟩
    have := h.1
    omega

theorem sum_regroup (m : Bool) (l : Arith) (hl : l.Proper) : (r : Arith) → r.Proper →
    ∃ b : Arith, b.Proper ∧ b.tokens = (Arith.sum m l r).tokens
  | .num, h => ⟨.sum m l .num, ⟨by simp [Arith.level], hl, h⟩, rfl⟩
  | .paren a, h => ⟨.sum m l (.paren a), ⟨by simp [Arith.level], hl, h⟩, rfl⟩
  | .fact a, h => ⟨.sum m l (.fact a), ⟨by simp [Arith.level], hl, h⟩, rfl⟩
  | .neg a, h => ⟨.sum m l (.neg a), ⟨by simp [Arith.level], hl, h⟩, rfl⟩
  | .prod d r1 r2, h => ⟨.sum m l (.prod d r1 r2), ⟨by simp [Arith.level], hl, h⟩, rfl⟩
  | .sum m' r1 r2, h => by
    obtain ⟨b, h1, h2⟩ := sum_regroup m l hl r1 h.2.1
    exact ⟨.sum m' b r2, ⟨h.1, h1, h.2.2⟩, by simp [Arith.tokens, h2]⟩

theorem prod_right (d : Bool) (l : Arith) (hl : l.Proper) (hl2 : 2 ≤ l.level) : (r : Arith) → r.Proper →
    ∃ b : Arith, b.Proper ∧ b.tokens = (Arith.prod d l r).tokens ∧ b.level = min r.level 2
  | .num, h => ⟨.prod d l .num, ⟨hl2, by simp [Arith.level], hl, h⟩, rfl, rfl⟩
  | .paren a, h => ⟨.prod d l (.paren a), ⟨hl2, by simp [Arith.level], hl, h⟩, rfl, rfl⟩
  | .fact a, h => ⟨.prod d l (.fact a), ⟨hl2, by simp [Arith.level], hl, h⟩, rfl, rfl⟩
  | .neg a, h => ⟨.prod d l (.neg a), ⟨hl2, by simp [Arith.level], hl, h⟩, rfl, rfl⟩
  | .prod d' r1 r2, h => by
    obtain ⟨b, h1, h2, h3⟩ := prod_right d l hl hl2 r1 h.2.2.1
    refine ⟨.prod d' b r2, ⟨?_, h.2.1, h1, h.2.2.2⟩, by simp [Arith.tokens, h2], rfl⟩
    have := h.1
    omega
  | .sum m' r1 r2, h => by
    obtain ⟨b, h1, h2, h3⟩ := prod_right d l hl hl2 r1 h.2.1
    exact ⟨.sum m' b r2, ⟨h.1, h1, h.2.2⟩, by simp [Arith.tokens, h2], rfl⟩

theorem prod_regroup (d : Bool) (r : Arith) (hr : r.Proper) : (l : Arith) → l.Proper →
    ∃ b : Arith, b.Proper ∧ b.tokens = (Arith.prod d l r).tokens
  | .sum m l1 l2, h => by
    obtain ⟨b, h1, h2, _⟩ := prod_right d l2 h.2.2 h.1 r hr
    obtain ⟨c, h4, h5⟩ := sum_regroup m l1 h.2.1 b h1
    exact ⟨c, h4, by simp [h5, Arith.tokens, h2]⟩
  | .num, h => (prod_right d _ h (by simp [Arith.level]) r hr).imp fun _ h => ⟨h.1, h.2.1⟩
  | .paren a, h => (prod_right d _ h (by simp [Arith.level]) r hr).imp fun _ h => ⟨h.1, h.2.1⟩
  | .fact a, h => (prod_right d _ h (by simp [Arith.level]) r hr).imp fun _ h => ⟨h.1, h.2.1⟩
  | .neg a, h => (prod_right d _ h (by simp [Arith.level]) r hr).imp fun _ h => ⟨h.1, h.2.1⟩
  | .prod d' l1 l2, h => (prod_right d _ h (by simp [Arith.level]) r hr).imp fun _ h => ⟨h.1, h.2.1⟩

theorem regroup (a : Arith) : ∃ b : Arith, b.Proper ∧ b.tokens = a.tokens := by
  induction a with
  | num => exact ⟨.num, trivial, rfl⟩
  | paren a ih =>
    obtain ⟨b, h1, h2⟩ := ih
    exact ⟨.paren b, h1, by simp [Arith.tokens, h2]⟩
  | neg a ih =>
    obtain ⟨b, h1, h2⟩ := ih
    obtain ⟨c, h3, h4, _⟩ := neg_regroup b h1
    exact ⟨c, h3, by simp [h4, Arith.tokens, h2]⟩
  | fact a ih =>
    obtain ⟨b, h1, h2⟩ := ih
    obtain ⟨c, h3, h4, _⟩ := fact_regroup b h1
    exact ⟨c, h3, by simp [h4, Arith.tokens, h2]⟩
  | sum m l r ihl ihr =>
    obtain ⟨b, h1, h2⟩ := ihl
    obtain ⟨c, h3, h4⟩ := ihr
    obtain ⟨e, h5, h6⟩ := sum_regroup m b h1 c h3
    exact ⟨e, h5, by simp [h6, Arith.tokens, h2, h4]⟩
  | prod d l r ihl ihr =>
    obtain ⟨b, h1, h2⟩ := ihl
    obtain ⟨c, h3, h4⟩ := ihr
    obtain ⟨e, h5, h6⟩ := prod_regroup d c h3 b h1
    exact ⟨e, h5, by simp [h6, Arith.tokens, h2, h4]⟩

/-! ## What is read -/

/-- The types of the significant tokens from `i` to `j`. -/
inductive Types (env : Env) : Nat → Nat → List NodeType → Prop
  | nil : Types env i i []
  | cons : sigTy env i = some t → Types env (i + 1) j ts → Types env i j (t :: ts)

variable {env : Env} {args : Args}

theorem Types.append {i j k : Nat} {ts us : List NodeType} (h : Types env i j ts) (h' : Types env j k us) :
    Types env i k (ts ++ us) := by
  induction h with
  | nil => exact h'
  | cons h1 _ ih => exact .cons h1 (ih h')

theorem Types.le {i j : Nat} {ts : List NodeType} (h : Types env i j ts) : i ≤ j := by
  induction h with
  | nil => exact Nat.le_refl _
  | cons _ _ ih => omega

theorem Types.input {stop : Nat} {ts us : List NodeType} {i : Nat} (h : Types env i stop ts)
    (h' : Input env ⟨i, stop⟩ us) : us = ts := by
  induction h generalizing us with
  | nil =>
    cases h' with
    | nil => rfl
    | cons h1 => exact absurd rfl h1
  | cons h1 h2 ih =>
    have := h2.le
    cases h' with
    | nil h => simp only at h; omega
    | cons h3 h4 h5 =>
      rw [h1, Option.some.injEq] at h4
      rw [h4, ih h5]

/-- The tokens from `i` to `j` are those of an expression. -/
def Reads (env : Env) (i j : Nat) : Prop := ∃ a : Arith, Types env i j a.tokens

/-- What is claimed about operator expressions and their parts. -/
def Claim (env : Env) : Goal → Nat → Nat → Prop
  | .pratt tb _, i, j => tb = table → Reads env i j
  | .operand tb, i, j => tb = table → Reads env i j
  | .chain tb _ _, i, j => tb = table → ∀ k, Reads env k i → Reads env k j
  | .rhs tb ix, i, j => tb = table → if ix.hasRhs then Reads env i j else i = j
  | _, _, _ => True

theorem token_inv {e i j ty : Nat} {I : Items} (he : env.grammar.rules[e]? = some (.token ty))
    (h : Derives env args (.expr e) i j I) :
    ∃ t, env.grammar.nodeTypes[ty]? = some t ∧ sigTy env i = some t ∧ j = i + 1 := by
  cases h <;> simp_all

theorem or_inv {e i j : Nat} {parts : List Nat} {I : Items} (he : env.grammar.rules[e]? = some (.or parts))
    (h : Derives env args (.expr e) i j I) : ∃ p ∈ parts, Derives env args (.expr p) i j I := by
  cases h with
  | or h1 h2 h3 =>
    rw [he] at h1
    cases h1
    exact ⟨_, h2, h3⟩
  | _ => simp_all

theorem and_inv {e i j : Nat} {parts : List Nat} {I : Items} (he : env.grammar.rules[e]? = some (.and parts none))
    (h : Derives env args (.expr e) i j I) : Derives env args (.all parts) i j I := by
  cases h with
  | and h1 h2 =>
    rw [he] at h1
    cases h1
    exact h2
  | _ => simp_all

theorem pub_inv {e i j ty body : Nat} {I : Items} (he : env.grammar.rules[e]? = some (.pub ty body false))
    (h : Derives env args (.expr e) i j I) :
    ∃ (t : NodeType) (J : Items), I = .node t J .nil ∧ Derives env args (.expr body) i j J := by
  cases h with
  | pub h1 h2 h3 =>
    rw [he] at h1
    cases h1
    exact ⟨_, _, rfl, h3⟩
  | _ => simp_all

theorem pratt_inv {e i j : Nat} {tb : PrattTable} {I : Items} (he : env.grammar.rules[e]? = some (.pratt tb))
    (h : Derives env args (.expr e) i j I) : Derives env args (.pratt tb 0) i j I := by
  cases h with
  | pratt h1 h2 =>
    rw [he] at h1
    cases h1
    exact h2
  | _ => simp_all

theorem all_inv {p i j : Nat} {ps : List Nat} {I : Items} (h : Derives env args (.all (p :: ps)) i j I) :
    ∃ (k : Nat) (A B : Items), I = A.append B ∧ Derives env args (.expr p) i k A ∧ Derives env args (.all ps) k j B := by
  cases h with
  | allCons h1 h2 => exact ⟨_, _, _, rfl, h1, h2⟩

theorem nil_inv {i j : Nat} {I : Items} (h : Derives env args (.all []) i j I) : i = j := by
  cases h
  rfl

theorem sigTy_lt {i : Nat} {t : NodeType} (h : sigTy env i = some t) : i < env.nonWs.length := by
  unfold sigTy sigToken at h
  by_cases hi : i < env.nonWs.length
  · exact hi
  · rw [List.getElem?_eq_none (by omega)] at h
    simp at h

section

variable (hg : env.grammar = arithGrammar)
include hg

/-- Rules for one of some tokens. -/
theorem choice_inv {e : Nat} {ts : List NodeType} (hc : Choice arithGrammar e ts) {i j : Nat} {I : Items}
    (h : Derives env args (.expr e) i j I) : ∃ t ∈ ts, sigTy env i = some t ∧ j = i + 1 := by
  induction hc generalizing I with
  | token h1 h2 =>
    rw [← hg] at h1 h2
    obtain ⟨t, h3, h4, h5⟩ := token_inv h1 h
    rw [h2, Option.some.injEq] at h3
    exact ⟨_, by simp, h3 ▸ h4, h5⟩
  | and h1 _ ih =>
    rw [← hg] at h1
    obtain ⟨k, A, B, _, h2, h3⟩ := all_inv (and_inv h1 h)
    obtain rfl := nil_inv h3
    exact ih h2
  | or h1 _ ih =>
    rw [← hg] at h1
    obtain ⟨p, hp, h2⟩ := or_inv h1 h
    obtain ⟨x, hx, rfl⟩ := List.mem_map.1 hp
    obtain ⟨t, ht, h3⟩ := ih x hx h2
    exact ⟨t, List.mem_flatMap.2 ⟨x, hx, ht⟩, h3⟩

/-- What an operand reads. -/
theorem operand_inv {i j a : Nat} {I : Items}
    (ih : ∀ i' j' I', i < i' → i' ≤ env.nonWs.length → Derives env args (.expr 1) i' j' I' → I'.Whole →
      Reads env i' j')
    (ha : a ∈ [4, 5]) (h : Derives env args (.expr a) i j I) (hw : I.Whole) : Reads env i j := by
  simp only [List.mem_cons, List.not_mem_nil, or_false] at ha
  rcases ha with rfl | rfl
  · obtain ⟨t, J, rfl, h1⟩ := pub_inv (ty := 13) (body := 38) (by rw [hg]; rfl) h
    obtain ⟨t, ht, h2, rfl⟩ := choice_inv hg choice_number h1
    simp only [List.mem_singleton] at ht
    subst ht
    exact ⟨.num, .cons h2 .nil⟩
  · obtain ⟨t, J, rfl, h1⟩ := pub_inv (ty := 14) (body := 42) (by rw [hg]; rfl) h
    obtain ⟨p, hp, h2⟩ := or_inv (parts := [41]) (by rw [hg]; rfl) h1
    obtain rfl : p = 41 := by simpa using hp
    obtain ⟨k1, A, B, rfl, h3, h4⟩ := all_inv (and_inv (parts := [39, 1, 40]) (by rw [hg]; rfl) h2)
    obtain ⟨k2, A', B', rfl, h5, h6⟩ := all_inv h4
    obtain ⟨k3, A'', B'', rfl, h7, h8⟩ := all_inv h6
    obtain rfl := nil_inv h8
    obtain ⟨t1, ht1, h9, rfl⟩ := choice_inv hg choice_lparen h3
    obtain ⟨t2, ht2, h10, rfl⟩ := choice_inv hg choice_rparen h7
    simp only [List.mem_singleton] at ht1 ht2
    subst ht1 ht2
    obtain ⟨a, ha⟩ := ih _ _ _ (by omega) (sigTy_lt h9) h5
      (Items.whole_append.1 (Items.whole_append.1 hw.2.1).2).1
    exact ⟨.paren a, .cons h9 (ha.append (.cons h10 .nil))⟩

/-- What an operator reads together with its operands. -/
theorem infix_inv {ix : Infix} {k i m j : Nat} {A : Items} (hix : ix ∈ table.infixes)
    (h1 : Derives env args (.expr ix.op) i m A) (hk : Reads env k i)
    (h2 : if ix.hasRhs then Reads env m j else m = j) : i < j ∧ Reads env k j := by
  obtain ⟨t, ht, h3, rfl⟩ := choice_inv hg (tokenTable.infixTok ix hix) h1
  obtain ⟨a, ha⟩ := hk
  simp only [table, List.mem_cons, List.not_mem_nil, or_false] at hix
  rcases hix with rfl | rfl | rfl
  · obtain ⟨b, hb⟩ := h2
    have := hb.le
    simp only [toks, List.mem_cons, List.not_mem_nil, or_false] at ht
    rcases ht with rfl | rfl
    · exact ⟨by omega, .sum false a b, ha.append (.cons h3 hb)⟩
    · exact ⟨by omega, .sum true a b, ha.append (.cons h3 hb)⟩
  · obtain ⟨b, hb⟩ := h2
    have := hb.le
    simp only [toks, List.mem_cons, List.not_mem_nil, or_false] at ht
    rcases ht with rfl | rfl
    · exact ⟨by omega, .prod false a b, ha.append (.cons h3 hb)⟩
    · exact ⟨by omega, .prod true a b, ha.append (.cons h3 hb)⟩
  · simp only [Bool.false_eq_true, if_false] at h2
    subst h2
    simp only [toks, List.mem_singleton] at ht
    subst ht
    exact ⟨by omega, .fact a, ha.append (.cons h3 .nil)⟩

theorem claim {goal : Goal} {i j : Nat} {I : Items}
    (ih : ∀ i' j' I', i < i' → i' ≤ env.nonWs.length → Derives env args (.expr 1) i' j' I' → I'.Whole →
      Reads env i' j')
    (h : Derives env args goal i j I) (hw : I.Whole) : Claim env goal i j := by
  induction h with
  | prattChain h1 h2 ih1 ih2 =>
    rintro rfl
    have hr := ih1 ih (h2.whole_lhs hw) rfl
    obtain ⟨a, ha⟩ := hr
    have := ha.le
    exact ih2 (fun i' j' I' hi => ih i' j' I' (by omega)) hw rfl _ ⟨a, ha⟩
  | atom ha h1 =>
    rintro rfl
    exact operand_inv hg ih ha h1 hw
  | prefixOp hp ht h1 h2 _ ih2 =>
    rintro rfl
    simp only [table, List.mem_singleton] at hp
    subst hp
    obtain ⟨t, ht, h3, rfl⟩ := choice_inv hg (.token (e := 21) (ty := 4) rfl rfl) h1
    simp only [List.mem_singleton] at ht
    subst ht
    obtain ⟨a, ha⟩ := ih2 (fun i' j' I' hi => ih i' j' I' (by omega)) (Items.whole_append.1 hw.2.1).2 rfl
    exact ⟨.neg a, .cons h3 ha⟩
  | chainEnd => exact fun _ _ h => h
  | chainOp hix _ ht h1 h2 _ h3 _ ih2 ih3 =>
    rintro rfl k hk
    have hJ := (Items.whole_under.1 hw).2
    have hB := (Items.whole_append.1 (h3.whole_lhs hJ).2.1).2
    obtain ⟨t, _, _, hk'⟩ := choice_inv hg (tokenTable.infixTok _ hix) h1
    have hr := ih2 (fun i' j' I' hi => ih i' j' I' (by omega)) hB rfl
    obtain ⟨hlt, hr'⟩ := infix_inv hg hix h1 hk hr
    exact ih3 (fun i' j' I' hi => ih i' j' I' (by omega)) hJ rfl k hr'
  | chainLoop hix _ ht h1 h2 h3 _ ih2 ih3 =>
    rintro rfl k hk
    have hB := (Items.whole_append.1 (h3.whole_lhs hw).2.1).2
    obtain ⟨t, _, _, hk'⟩ := choice_inv hg (tokenTable.infixTok _ hix) h1
    have hr := ih2 (fun i' j' I' hi => ih i' j' I' (by omega)) hB rfl
    obtain ⟨hlt, hr'⟩ := infix_inv hg hix h1 hk hr
    exact ih3 (fun i' j' I' hi => ih i' j' I' (by omega)) hw rfl k hr'
  | rhsNone h1 =>
    intro _
    simp [h1]
  | rhsSome h1 h2 ih2 =>
    intro e
    rw [if_pos h1]
    exact ih2 ih hw e
  | rhsMissing => exact absurd rfl hw.1
  | _ => trivial

/-- What is read as an expression, without errors, are the tokens of an expression. -/
theorem expr_reads {i j : Nat} {I : Items} (h : Derives env args (.expr 1) i j I) (hw : I.Whole) :
    Reads env i j := by
  suffices hn : ∀ (n i j : Nat) (I : Items), env.nonWs.length - i < n → Derives env args (.expr 1) i j I → I.Whole →
      Reads env i j from hn _ _ _ _ (Nat.lt_succ_self _) h hw
  intro n
  induction n with
  | zero => omega
  | succ n ih =>
    intro i j I hn h hw
    exact claim hg (fun i' j' I' hi hi' => ih i' j' I' (by omega)) (pratt_inv (by rw [hg]; rfl) h) hw rfl

theorem file_reads {i j : Nat} {I : Items} (h : Derives env args (.expr 9) i j I) (hw : I.Whole) : Reads env i j := by
  obtain ⟨p, hp, h2⟩ := or_inv (parts := [8]) (by rw [hg]; rfl) h
  obtain rfl : p = 8 := by simpa using hp
  obtain ⟨k, A, B, rfl, h3, h4⟩ := all_inv (and_inv (parts := [1]) (by rw [hg]; rfl) h2)
  obtain rfl := nil_inv h4
  exact expr_reads hg h3 (Items.whole_append.1 hw).1

end

theorem spaceless (lexer : Lexer Nat) : SpacelessStrings (arithDefinition lexer) := by
  intro ty w h
  have key : arithRules.all (fun x => match x with | .contextualToken _ _ => false | _ => true) = true := by
    decide +kernel
  have := List.all_eq_true.1 key _ h
  simp at this

theorem tree_types (a : Arith) : (∀ ty fp, .start ty fp ∈ a.tree → ty ≠ ERROR) ∧
    ∀ ty n, .token ty n ∈ a.tree → ty ≠ ERROR := by
  induction a with
  | num => simp [Arith.tree, ERROR]
  | paren a ih => simp [Arith.tree, ERROR, or_imp, forall_and] at ih ⊢; exact ih
  | neg a ih => simp [Arith.tree, ERROR, or_imp, forall_and] at ih ⊢; exact ih
  | fact a ih => simp [Arith.tree, ERROR, or_imp, forall_and] at ih ⊢; exact ih
  | sum m l r ihl ihr =>
    simp [Arith.tree, ERROR, or_imp, forall_and] at ihl ihr ⊢
    exact ⟨⟨ihl.1, ihr.1⟩, ihl.2, by split <;> simp, ihr.2⟩
  | prod d l r ihl ihr =>
    simp [Arith.tree, ERROR, or_imp, forall_and] at ihl ihr ⊢
    exact ⟨⟨ihl.1, ihr.1⟩, ihl.2, by split <;> simp, ihr.2⟩

/-- The tree shows the expression. -/
theorem tree_inj (a : Arith) : ∀ (b : Arith) {r r' : List Event}, a.tree ++ r = b.tree ++ r' → a = b ∧ r = r' := by
  have bit : ∀ {m m' : Bool} {x y : Nat}, x ≠ y → (if m then x else y) = (if m' then x else y) → m = m' := by
    intro m m' x y hxy h
    cases m <;> cases m' <;> simp_all [eq_comm]
  induction a with
  | num =>
    intro b r r' h
    cases b <;> simp [Arith.tree] at h ⊢
    exact h
  | paren a ih =>
    intro b r r' h
    cases b <;> simp [Arith.tree] at h ⊢
    obtain ⟨rfl, h1⟩ := ih _ h
    simpa using h1
  | neg a ih =>
    intro b r r' h
    cases b <;> simp [Arith.tree] at h ⊢
    obtain ⟨rfl, h1⟩ := ih _ h
    simpa using h1
  | fact a ih =>
    intro b r r' h
    cases b <;> simp [Arith.tree] at h ⊢
    obtain ⟨rfl, h1⟩ := ih _ h
    simpa using h1
  | sum m l r ihl ihr =>
    intro b s s' h
    cases b <;> simp [Arith.tree] at h ⊢
    obtain ⟨rfl, h1⟩ := ihl _ h
    simp only [List.cons.injEq, Event.token.injEq, and_true] at h1
    obtain ⟨rfl, h2⟩ := ihr _ h1.2
    exact ⟨⟨bit (by decide) h1.1, rfl, rfl⟩, by simpa using h2⟩
  | prod m l r ihl ihr =>
    intro b s s' h
    cases b <;> simp [Arith.tree] at h ⊢
    obtain ⟨rfl, h1⟩ := ihl _ h
    simp only [List.cons.injEq, Event.token.injEq, and_true] at h1
    obtain ⟨rfl, h2⟩ := ihr _ h1.2
    exact ⟨⟨bit (by decide) h1.1, rfl, rfl⟩, by simpa using h2⟩

theorem tokens_sig (a : Arith) : ∀ t ∈ a.tokens, arithIsWs t = false := by
  induction a with
  | num => simp [Arith.tokens, arithIsWs]
  | paren a ih => simp [Arith.tokens, or_imp, forall_and] at ih ⊢; exact ⟨rfl, ih, rfl⟩
  | neg a ih => simp [Arith.tokens, or_imp, forall_and] at ih ⊢; exact ⟨rfl, ih⟩
  | fact a ih => simp [Arith.tokens, or_imp, forall_and] at ih ⊢; exact ⟨ih, rfl⟩
  | sum m l r ihl ihr =>
    simp [Arith.tokens, or_imp, forall_and] at ihl ihr ⊢
    exact ⟨ihl, by cases m <;> rfl, ihr⟩
  | prod m l r ihl ihr =>
    simp [Arith.tokens, or_imp, forall_and] at ihl ihr ⊢
    exact ⟨ihl, by cases m <;> rfl, ihr⟩

end Arithmetic

end Fall
