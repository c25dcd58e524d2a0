import Verif.Lemmas.ArithExact
import Verif.Props.Pratt
import Verif.Props.Strict
import Verif.Props.Sexp

/-!
C100: arithmetic expressions are what the parser for them reads without errors.
-/

namespace Fall

open Spec Convert

/-- The types of the tokens that are not whitespace. -/
def arithTypesOf (tokens : List Token) : List NodeType := (tokens.filter fun t => !arithIsWs t.ty).map (·.ty)

theorem arith_linked : Linked arithGrammar := by
  have : (⟨0x1ffffffffffff, 0, []⟩ : Check.SafeCert).linked Check.arithCert arithGrammar = true := by decide +kernel
  exact linked_sound this

/-- The tokens determine the events of a parse. -/
theorem synParse_events {env : Env} {n n' : Nat} {es es' : List Event} {t t' : Nat}
    (h : synParse env n = .ok (es, t)) (h' : synParse env n' = .ok (es', t')) : es = es' := by
  rcases Nat.le_total n n' with hle | hle
  · rcases synParse_le env hle with e | e
    · rw [h] at e; cases e
    · rw [h, h', Result.ok.injEq, Prod.mk.injEq] at e; exact e.1.symm
  · rcases synParse_le env hle with e | e
    · rw [h'] at e; cases e
    · rw [h, h', Result.ok.injEq, Prod.mk.injEq] at e; exact e.1

/-- C100. The file of an expression with parentheses where the usual rules need them has a node for each number, each pair
of parentheses and each operator, around the operands that the rules give to it; whitespace is between them. -/
theorem C100_tree (lexer : Lexer Nat) (hp : Progress lexer) (n : Nat) (text : List Nat) (file : File Nat)
    (data : Definition.IncrementalData) (h : (arithDefinition lexer).parse n text = .ok (file, data))
    (tokens : List Token) (ht : IsLexing lexer text tokens) (a : Arith) (ha : a.Proper)
    (hts : arithTypesOf tokens = a.tokens) :
    ∃ ops, newFile text ops = some file ∧
      Places arithIsWs (.start 109 none :: (a.tree ++ [.fin])) tokens ops := by
  obtain ⟨t, kids, plain, ticks, h1, h2, h3, h4, h5, h6⟩ := parse_parts (d := arithDefinition lexer) (ty := 10)
    (body := 9) hp rfl (fun _ _ _ => Nat.zero_le _) (Arithmetic.spaceless lexer) h
  obtain rfl := IsLexing.unique h1 ht
  obtain ⟨n', es, ticks', h7, h8⟩ := C40_arith_round_trip a ha text data.tokens h1.sum hts
  obtain rfl := synParse_events h2 h7
  rw [h3, Result.ok.injEq] at h8
  subst h8
  exact ⟨_, h5, h4⟩

/-- C100. A parsed file has no ERROR, neither a node nor a token, if and only if its tokens are those of an arithmetic
expression: every operator has its operands and every parenthesis is closed. -/
theorem C100_arith (lexer : Lexer Nat) (hp : Progress lexer) (n : Nat) (text : List Nat) (file : File Nat)
    (data : Definition.IncrementalData) (h : (arithDefinition lexer).parse n text = .ok (file, data))
    (tokens : List Token) (ht : IsLexing lexer text tokens) :
    (∀ m : Nat, file.ty m ≠ some ERROR) ↔ ∃ a : Arith, arithTypesOf tokens = a.tokens := by
  constructor
  · intro hno
    obtain ⟨t, kids, I, tokens', h1, _, _, _, _, hw, h2⟩ := parse_strict (d := arithDefinition lexer) (ty := 10)
      (body := 9) hp rfl (fun _ _ _ => Nat.zero_le _) (Arithmetic.spaceless lexer) arith_linked (N := fun _ => true)
      (fun _ _ => rfl) h hno
    obtain rfl := IsLexing.unique h1 ht
    obtain ⟨a, ha⟩ := Arithmetic.file_reads (by rfl) h2 hw
    exact ⟨a, ha.input (input_start (cache := none) (g := arithGrammar) (isWs := arithIsWs) (text := text))⟩
  · rintro ⟨a0, ha0⟩
    obtain ⟨a, ha, e⟩ := Arithmetic.regroup a0
    rw [← e] at ha0
    obtain ⟨t, kids, plain, ticks, h1, h2, h3, h4, h5, h6⟩ := parse_parts (d := arithDefinition lexer) (ty := 10)
      (body := 9) hp rfl (fun _ _ _ => Nat.zero_le _) (Arithmetic.spaceless lexer) h
    obtain rfl := IsLexing.unique h1 ht
    obtain ⟨n', es, ticks', h7, h8⟩ := C40_arith_round_trip a ha text data.tokens h1.sum ha0
    obtain rfl := synParse_events h2 h7
    rw [h3, Result.ok.injEq] at h8
    subst h8
    intro m hm
    obtain ⟨k1, k2⟩ := Arithmetic.tree_types a
    rcases (types_of_events h4 h6 ERROR).2 ⟨m, hm⟩ with ⟨fp, h⟩ | h | ⟨k, h⟩
    · simp only [List.mem_cons, List.mem_append, List.not_mem_nil, or_false, reduceCtorEq] at h
      rcases h with h | h
      · cases h
      · exact k1 _ _ h rfl
    · cases h
    · simp only [List.mem_cons, List.mem_append, List.not_mem_nil, or_false, reduceCtorEq, false_or] at h
      exact k2 _ _ h rfl

/-- C100. The tokens determine the expression, if it has parentheses where they are needed; and every expression has the
tokens of one of these. -/
theorem C100_unique (a : Arith) : ∃ b : Arith, b.Proper ∧ b.tokens = a.tokens ∧
    ∀ c : Arith, c.Proper → c.tokens = a.tokens → c = b := by
  obtain ⟨b, hb, e⟩ := Arithmetic.regroup a
  refine ⟨b, hb, e, fun c hc hts => ?_⟩
  have hs : ∀ x : Arith, ((x.tokens.map fun t => (⟨t, 1⟩ : Token)).filter fun t => !arithIsWs t.ty).map (·.ty) =
      x.tokens := by
    intro x
    rw [List.filter_eq_self.2]
    · simp [Function.comp_def]
    · intro t ht
      obtain ⟨y, hy, rfl⟩ := List.mem_map.1 ht
      simp [Arithmetic.tokens_sig x y hy]
  have hlen : ((a.tokens.map fun t => (⟨t, 1⟩ : Token)).map (·.len)).sum = a.tokens.length := by
    generalize a.tokens = l
    induction l with
    | nil => rfl
    | cons _ _ ih => simp only [List.map_cons, List.sum_cons, ih, List.length_cons]; omega
  obtain ⟨n, es, ticks, h1, h2⟩ := C40_arith_round_trip b hb (a.tokens) (a.tokens.map fun t => ⟨t, 1⟩) hlen
    (by rw [hs, e])
  obtain ⟨n', es', ticks', h3, h4⟩ := C40_arith_round_trip c hc (a.tokens) (a.tokens.map fun t => ⟨t, 1⟩) hlen
    (by rw [hs, hts])
  obtain rfl := synParse_events h1 h3
  rw [h2, Result.ok.injEq, List.cons.injEq] at h4
  exact (Arithmetic.tree_inj c b h4.2.symm).1

/-- The text `-2! * (1 - 3)`. -/
def arithSample : List Nat := [45, 50, 33, 32, 42, 32, 40, 49, 32, 45, 32, 51, 41]

/-- Its expression. -/
def arithValue : Arith := .prod false (.neg (.fact .num)) (.paren (.sum true .num .num))

example : arithValue.Proper ∧
    (lex (ruleLexer arithLexRules) arithSample).map arithTypesOf = some arithValue.tokens ∧
    typesOf ((arithDefinition (ruleLexer arithLexRules)).parse 300 arithSample) =
      [109, 110, 115, 103, 114, 112, 101, 106, 100, 104, 100, 113, 107, 111, 112, 101, 100, 103, 100, 112, 101, 108] := by
  refine ⟨?_, ?_, ?_⟩ <;> decide +kernel

/-- `1+`, `1)` and `1 2` have errors. -/
example : erroneous ((arithDefinition (ruleLexer arithLexRules)).parse 300 [49, 43]) = some true ∧
    erroneous ((arithDefinition (ruleLexer arithLexRules)).parse 300 [49, 41]) = some true ∧
    erroneous ((arithDefinition (ruleLexer arithLexRules)).parse 300 [49, 32, 50]) = some true ∧
    erroneous ((arithDefinition (ruleLexer arithLexRules)).parse 300 arithSample) = some false := by
  refine ⟨?_, ?_, ?_, ?_⟩ <;> decide +kernel

/-- `-2! * (1 - 3)`, wrongly grouped. -/
example : (Arith.neg (.fact (.prod false .num (.paren (.sum true .num .num))))).tokens ≠ arithValue.tokens ∧
    (Arith.neg (.prod false (.fact .num) (.paren (.sum true .num .num)))).tokens = arithValue.tokens ∧
    ¬ (Arith.neg (.prod false (.fact .num) (.paren (.sum true .num .num)))).Proper := by decide

end Fall
