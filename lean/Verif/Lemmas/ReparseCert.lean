import Verif.Lemmas.Relocate
import Verif.Props.Incremental

/-! Computable conditions on the rules of a grammar, for what reparsing needs, and the grammar of Fall. -/

namespace Fall.ReparseCert

open Spec Parser

/-- The numbers whose bits are set. -/
def In (bits e : Nat) : Prop := bits.testBit e = true

instance (bits e : Nat) : Decidable (In bits e) := inferInstanceAs (Decidable (_ = _))

def subB (A : Nat) (need : Nat → List Nat) (e x : Nat) : Bool :=
  A.testBit x && (need x).all fun i => (need e).contains i

/-- Like `TwinRule`. -/
def twinB (A : Nat) (need : Nat → List Nat) (g : Grammar) (e : Nat) : Expr → Bool
  | .pub _ body replaceable => !replaceable && subB A need e body
  | .or ps | .and ps _ => ps.all fun x => subB A need e x
  | .token _ | .eof | .any => true
  | .rep x | .opt x | .not x => subB A need e x
  | .layer l x => subB A need e l && subB A need e x
  | .pratt t => (t.atoms.all fun a => subB A need e a) && (t.prefixes.all fun x => subB A need e x.op) &&
      t.infixes.all fun x => subB A need e x.op
  | .call body args => A.testBit body && ((need body).all fun i => (need e).contains i || (args.map (·.1)).contains i) &&
      args.all fun x => match g.rules[x.2]? with
        | none => true
        | some (.var j) => (need e).contains j
        | some _ => A.testBit x.2 && (need x.2).isEmpty
  | .var i => (need e).contains i
  | _ => false

theorem subB_iff {A : Nat} {need : Nat → List Nat} {e x : Nat} : subB A need e x = true ↔ Parser.Sub (In A) need e x := by
  simp [subB, Parser.Sub, In]

theorem twinB_sound {A : Nat} {need : Nat → List Nat} {g : Grammar} {e : Nat} {rule : Expr}
    (h : twinB A need g e rule = true) : TwinRule (In A) need g e rule := by
  cases rule <;> simp only [twinB, TwinRule, Bool.and_eq_true, List.all_eq_true, subB_iff, Bool.not_eq_true',
    Bool.false_eq_true] at h ⊢ <;> try exact h
  case call body args =>
    obtain ⟨⟨h1, h2⟩, h3⟩ := h
    refine ⟨h1, fun i hi => by simpa using h2 i hi, fun x hx rule hr => ?_⟩
    have h4 := h3 x hx
    rw [hr] at h4
    cases rule <;> simp_all [In]
  case pratt t => exact ⟨h.1.1, h.1.2, h.2⟩
  case var i => simpa using h

/-- Like `CleanRule`. -/
def cleanB (C : Nat) (g : Grammar) : Expr → Bool
  | .pub _ body _ | .pubReplace _ body | .rep body | .opt body | .enter _ body | .exit _ body
  | .withSkip _ body | .layer _ body => C.testBit body
  | .or ps | .and ps _ => ps.all C.testBit
  | .token ty => g.nodeTypes[ty]? != some ERROR
  | .pratt t => (t.atoms.all C.testBit) && (t.prefixes.all fun x => C.testBit x.op) &&
      t.infixes.all fun x => C.testBit x.op
  | .call body args => C.testBit body && args.all fun x => C.testBit x.2
  | .inject a b => C.testBit a && C.testBit b
  | .contextualToken _ _ | .not _ | .eof | .isIn _ | .prevIs _ | .var _ => true
  | .any | .cached _ => false

theorem cleanB_sound {C : Nat} {g : Grammar} {rule : Expr} (h : cleanB C g rule = true) :
    CleanRule (In C) g rule := by
  cases rule <;> simp only [cleanB, CleanRule, In, Bool.and_eq_true, List.all_eq_true,
    Bool.false_eq_true, bne_iff_ne] at h ⊢ <;> try exact h
  case pratt t => exact ⟨h.1.1, h.1.2, h.2⟩

/-- The expressions that make others confined. -/
def confinesB (S : Nat) : Expr → Bool
  | .not l | .withSkip l _ => S.testBit l
  | .layer l body => S.testBit l && S.testBit body
  | _ => true

/-- The parts of a confined expression are confined. -/
def confinedB (S : Nat) (g : Grammar) : Expr → Bool
  | .var _ => g.rules.all fun r => match r with
    | .call _ args => args.all fun x => S.testBit x.2
    | _ => true
  | .cached _ => false
  | rule => (parts rule).all S.testBit

def friendlyB (S : Nat) (g : Grammar) : Bool :=
  (List.range g.rules.length).all fun e => match g.rules[e]? with
    | none => true
    | some rule => confinesB S rule && (!S.testBit e || confinedB S g rule) && match rule with
      | .prevIs _ | .pubReplace _ _ => false
      | _ => true

theorem friendlyB_sound {S : Nat} {g : Grammar} (h : friendlyB S g = true) : CacheFriendly g := by
  have rule : ∀ (e : Nat) rule, g.rules[e]? = some rule →
      (confinesB S rule && (!S.testBit e || confinedB S g rule) && match rule with
      | .prevIs _ | .pubReplace _ _ => false
      | _ => true) = true := by
    intro e rule hr
    have h1 := List.all_eq_true.1 h e (List.mem_range.2 (List.getElem?_eq_some_iff.1 hr).1)
    rw [hr] at h1
    exact h1
  have hc : ∀ e, Confined g e → S.testBit e = true := by
    intro e he
    induction he with
    | not hr =>
      have := rule _ _ hr
      simp only [confinesB, Bool.and_eq_true] at this
      exact this.1.1
    | skip hr =>
      have := rule _ _ hr
      simp only [confinesB, Bool.and_eq_true] at this
      exact this.1.1
    | bound hr =>
      have := rule _ _ hr
      simp only [confinesB, Bool.and_eq_true] at this
      exact this.1.1.1
    | layer hr =>
      have := rule _ _ hr
      simp only [confinesB, Bool.and_eq_true] at this
      exact this.1.1.2
    | @part e p r _ hr hp ih =>
      have := rule _ _ hr
      simp only [Bool.and_eq_true, Bool.or_eq_true, Bool.not_eq_true', ih, Bool.true_eq_false, false_or] at this
      have h2 := this.1.2
      cases r <;> first
        | exact List.all_eq_true.1 h2 p hp
        | cases h2
        | cases hp
    | arg _ hr hp ih =>
      have := rule _ _ hr
      simp only [Bool.and_eq_true, Bool.or_eq_true, Bool.not_eq_true', ih, Bool.true_eq_false, false_or] at this
      obtain ⟨e', body, args, i, h3, h4⟩ := hp
      have := List.all_eq_true.1 this.1.2 _ (List.mem_of_getElem? h3)
      exact List.all_eq_true.1 this _ h4
  refine ⟨fun e body hr hcon => ?_, fun tys hm => ?_, fun ty body hm => ?_⟩
  · have := rule _ _ hr
    simp [hc e hcon, confinedB] at this
  · obtain ⟨e, hr⟩ := List.getElem?_of_mem hm
    have := rule _ _ hr
    simp at this
  · obtain ⟨e, hr⟩ := List.getElem?_of_mem hm
    have := rule _ _ hr
    simp at this

/-- Like `EndRule`, for all expressions but those of `out`; `eager` are the ones that fail at the end. -/
def endB (out eager : List Nat) (g : Grammar) (e : Nat) : Expr → Bool
  | .pub _ body _ | .opt body | .enter _ body | .exit _ body | .pubReplace _ body | .call body _ | .cached body =>
    out.contains e || !out.contains body
  | .rep body | .not body => !out.contains body
  | .or ps => out.contains e || ps.all fun p => !out.contains p
  | .and ps _ => (out.contains e || (ps.take 1).all fun p => !out.contains p) && ps.tail.all fun p => !out.contains p
  | .withSkip l body => !out.contains l && (!out.contains body || eager.contains l)
  | .layer l body => !out.contains l && !out.contains body
  | .pratt t => (t.atoms.all fun p => !out.contains p) && (t.prefixes.all fun p => !out.contains p.op) &&
      t.infixes.all fun p => !out.contains p.op
  | .var _ => g.rules.all fun r => match r with
    | .call _ args => args.all fun x => !out.contains x.2
    | _ => true
  | .inject pre body => (out.contains e || !out.contains pre) && !out.contains body
  | .prevIs _ | .token _ | .contextualToken _ _ | .eof | .any | .isIn _ => true

theorem endB_sound {out eager : List Nat} {g : Grammar} {env : Env} (he : ∀ l ∈ eager, Eager env l) {e : Nat}
    {rule : Expr} (h : endB out eager g e rule = true) : EndRule (fun x => x ∉ out) g env e rule := by
  have swap : ∀ {p : Prop}, e ∈ out ∨ p → e ∉ out → p := fun h hn => h.resolve_left hn
  cases rule <;> simp only [endB, EndRule, Bool.and_eq_true, Bool.or_eq_true, List.all_eq_true, Bool.not_eq_true',
    List.contains_eq_mem, decide_eq_true_eq, decide_eq_false_iff_not] at h ⊢ <;> try first | exact h | exact swap h
  case and ps c =>
    refine ⟨fun hn p hp => swap h.1 hn p ?_, h.2⟩
    cases ps with
    | nil => simp at hp
    | cons q ps => simp at hp ⊢; exact hp.symm
  case withSkip l body => exact ⟨h.1, h.2.imp id (he l)⟩
  case pratt t => exact ⟨h.1.1, h.1.2, h.2⟩
  case var i =>
    rintro - a ⟨e', body, args, i, h3, h4⟩
    have := h _ (List.mem_of_getElem? h3)
    simp only [List.all_eq_true] at this
    simpa using this _ h4
  case inject a b => exact ⟨swap h.1, h.2⟩

/-- The condition for every rule of a grammar. -/
def allB (g : Grammar) (f : Nat → Expr → Bool) : Bool :=
  (List.range g.rules.length).all fun e => match g.rules[e]? with
    | none => true
    | some rule => f e rule

theorem allB_sound {g : Grammar} {f : Nat → Expr → Bool} (h : allB g f = true) {e : Nat} {rule : Expr}
    (hr : g.rules[e]? = some rule) : f e rule = true := by
  have := List.all_eq_true.1 h e (List.mem_range.2 (List.getElem?_eq_some_iff.1 hr).1)
  rw [hr] at this
  exact this

/-! ## The grammar of Fall -/

/-- The expressions run inside of the brackets of a rule. -/
def fallInside : Nat := 1606889195963271216556571064428549341953025583597557374129120

/-- The arguments they use. -/
def fallNeed : Nat → List Nat
  | 20 | 158 | 164 | 165 | 166 | 167 => [0]
  | 21 | 169 | 170 | 172 => [1]
  | 185 | 186 => [2]
  | 187 | 189 | 191 | 192 | 194 | 195 | 196 => [3]
  | 25 | 188 | 190 | 197 | 198 | 199 => [2, 3]
  | _ => []

theorem fall_twin : ∀ e, In fallInside e → ∀ rule, fallGrammar.rules[e]? = some rule →
    TwinRule (In fallInside) fallNeed fallGrammar e rule := by
  have h : allB fallGrammar (fun e rule => !fallInside.testBit e || twinB fallInside fallNeed fallGrammar e rule) = true := by
    decide +kernel
  intro e he rule hr
  have := allB_sound h hr
  simp only [Bool.or_eq_true, Bool.not_eq_true'] at this
  rcases this with h1 | h1
  · rw [In, h1] at he; cases he
  · exact twinB_sound h1

/-- The expressions without marks. -/
def fallClean : Nat := 30354201441025722642613769701637979571095834825971736892433500170720189068286620656

theorem fall_clean : ∀ e, In fallClean e → ∀ rule, fallGrammar.rules[e]? = some rule →
    CleanRule (In fallClean) fallGrammar rule := by
  have h : allB fallGrammar (fun e rule => !fallClean.testBit e || cleanB fallClean fallGrammar rule) = true := by
    decide +kernel
  intro e he rule hr
  have := allB_sound h hr
  simp only [Bool.or_eq_true, Bool.not_eq_true'] at this
  rcases this with h1 | h1
  · rw [In, h1] at he; cases he
  · exact cleanB_sound h1

theorem fall_friendly : CacheFriendly fallGrammar :=
  friendlyB_sound (S := 30354093056445392590800293093598722059670407760089861507369137483165727681574556642)
    (by decide +kernel)

/-- The strings of contextual tokens are of lowercase letters. -/
theorem fall_words : ∀ (e ty : Nat) w, fallGrammar.rules[e]? = some (.contextualToken ty w) →
    w ≠ [] ∧ ∀ c ∈ w, 97 ≤ c ∧ c ≤ 122 := by
  have h : allB fallGrammar (fun _ rule => match rule with
    | .contextualToken _ w => !w.isEmpty && w.all fun c => decide (97 ≤ c ∧ c ≤ 122)
    | _ => true) = true := by decide +kernel
  intro e ty w hr
  have := allB_sound h hr
  simpa using this

/-- There is one cached rule. -/
theorem fall_cached : ∀ (e body : Nat), fallGrammar.rules[e]? = some (.cached body) → e = 77 ∧ body = 76 := by
  have h : allB fallGrammar (fun e rule => match rule with
    | .cached b => e == 77 && b == 76
    | _ => true) = true := by decide +kernel
  intro e body hr
  have := allB_sound h hr
  simpa using this

/-- The expressions that are not run at the end of a file. -/
theorem fall_end {env : Env} (he : Eager env 1) (e : Nat) (rule : Expr) (hr : fallGrammar.rules[e]? = some rule) :
    EndRule (fun x => x ∉ [2, 53, 3, 77]) fallGrammar env e rule := by
  have h : allB fallGrammar (endB [2, 53, 3, 77] [1] fallGrammar) = true := by decide +kernel
  exact endB_sound (by simpa using he) (allB_sound h hr)

end Fall.ReparseCert
