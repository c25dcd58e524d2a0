import Verif.Lemmas.Json
import Verif.Lemmas.Promise
import Verif.Lemmas.Total
import Verif.Lemmas.Certs
import Verif.Model.Languages
import Verif.Props.Lex

/-!
From the events of a parse to the nodes of the file.
-/

namespace Fall

open Spec Convert

/-- Events without links are not moved. -/
theorem Spec.Items.resolve_plain {I : Items} (h : ∀ ty fp, .start ty fp ∈ I.encode → fp = none) :
    I.resolve = I.encode := by
  unfold Items.resolve
  induction I with
  | nil => rfl
  | tok ty n rest ih =>
    simp only [Items.encode, List.mem_cons] at h
    simp [Items.resolveWith, Items.encode, ih fun a b hb => h a b (Or.inr hb)]
  | cached key body rest ih1 ih2 =>
    simp only [Items.encode, List.mem_cons, List.mem_append] at h
    simp [Items.resolveWith, Items.encode, ih1 fun a b hb => h a b (Or.inr (Or.inl hb)),
      ih2 fun a b hb => h a b (Or.inr (Or.inr hb))]
  | node ty body rest ih1 ih2 =>
    simp only [Items.encode, List.mem_cons, List.mem_append] at h
    simp [Items.resolveWith, Items.encode, ih1 fun a b hb => h a b (Or.inr (Or.inl hb)),
      ih2 fun a b hb => h a b (Or.inr (Or.inr (Or.inr hb)))]
  | link ty body mids rest =>
    have := h ty _ (by simp [Items.encode]; exact Or.inl rfl)
    cases this
  | loop ty body rest =>
    have := h ty (some 0) (by simp [Items.encode])
    cases this

/-- No node is lost. -/
theorem Spec.Items.resolve_starts {T : NodeType} {I : Items} {first : List Event}
    (h : (∃ fp, .start T fp ∈ I.encode) ∨ .start T none ∈ first) : .start T none ∈ Items.resolveWith first I := by
  induction I generalizing first with
  | nil => simpa [Items.encode, Items.resolveWith] using h
  | tok ty n rest ih =>
    have := ih (first := [])
    simp only [Items.encode, List.mem_cons, Items.resolveWith, List.mem_append, reduceCtorEq, false_or] at h ⊢
    grind
  | cached key body rest ih1 ih2 =>
    have h1 := ih1 (first := [])
    have h2 := ih2 (first := [])
    simp only [Items.encode, List.mem_cons, Items.resolveWith, List.mem_append, reduceCtorEq, false_or] at h ⊢
    grind
  | node ty body rest ih1 ih2 =>
    have h1 := ih1 (first := [])
    have h2 := ih2 (first := [])
    simp only [Items.encode, List.mem_cons, Items.resolveWith, List.mem_append, reduceCtorEq, false_or] at h ⊢
    grind
  | link ty body mids rest ih1 ih2 ih3 =>
    have h1 := ih1 (first := [])
    have h2 := ih2 (first := [])
    simp only [Items.encode, List.mem_cons, Items.resolveWith, List.mem_append, reduceCtorEq, false_or] at h ⊢
    refine ih3 ?_
    simp only [List.mem_cons, List.mem_append, reduceCtorEq, false_or]
    rcases h with ⟨fp, h | h | h | h⟩ | h
    · cases h; exact Or.inr (Or.inl rfl)
    · exact Or.inr (Or.inr (Or.inl (Or.inr (h1 (Or.inl ⟨fp, h⟩)))))
    · exact Or.inr (Or.inr (Or.inr (h2 (Or.inl ⟨fp, h⟩))))
    · exact Or.inl ⟨fp, h⟩
    · exact Or.inr (Or.inr (Or.inl (Or.inl h)))
  | loop ty body rest ih1 ih2 =>
    have h1 := ih1 (first := [])
    have h2 := ih2 (first := [])
    simp only [Items.encode, List.mem_cons, Items.resolveWith, List.mem_append, reduceCtorEq, false_or] at h ⊢
    grind

theorem Spec.Places.starts {isWs : NodeType → Bool} {es : List Event} {ts : List Token} {ops : List BuilderOp}
    (h : Places isWs es ts ops) {ty : NodeType} {fp : Option Nat} (hs : .start ty fp ∈ es) : .start ty ∈ ops := by
  induction h with
  | nil => cases hs
  | space _ _ ih => exact List.mem_cons_of_mem _ (ih hs)
  | start _ ih =>
    rcases List.mem_cons.1 hs with h | h
    · cases h; exact List.mem_cons_self
    · exact List.mem_cons_of_mem _ (ih h)
  | fin _ ih => exact List.mem_cons_of_mem _ (ih (by simpa using hs))
  | token _ _ _ ih => exact List.mem_cons_of_mem _ (ih (by simpa using hs))
  | cached _ ih => exact ih (by simpa using hs)

theorem Spec.Places.leaves {isWs : NodeType → Bool} {es : List Event} {ts : List Token} {ops : List BuilderOp}
    (h : Places isWs es ts ops) {ty : NodeType} {len : Nat} (hs : .leaf ty len ∈ ops) :
    isWs ty = true ∨ ∃ n, .token ty n ∈ es := by
  induction h with
  | nil => cases hs
  | space hw _ ih =>
    rcases List.mem_cons.1 hs with h | h
    · cases h; exact Or.inl hw
    · exact ih h
  | start _ ih => exact (ih (by simpa using hs)).imp id fun ⟨n, h⟩ => ⟨n, List.mem_cons_of_mem _ h⟩
  | fin _ ih => exact (ih (by simpa using hs)).imp id fun ⟨n, h⟩ => ⟨n, List.mem_cons_of_mem _ h⟩
  | token _ _ _ ih =>
    rcases List.mem_cons.1 hs with h | h
    · cases h; exact Or.inr ⟨_, List.mem_cons_self⟩
    · exact (ih h).imp id fun ⟨n, h⟩ => ⟨n, List.mem_cons_of_mem _ h⟩
  | cached _ ih => exact (ih hs).imp id fun ⟨n, h⟩ => ⟨n, List.mem_cons_of_mem _ h⟩

/-- The types of the nodes are those of the calls. -/
theorem Forest.flatten_types (f : Forest) (T : NodeType) (p : Option Nat) (id pos : Nat) :
    (∃ x ∈ f.flatten p id pos, x.ty = T) ↔ .start T ∈ f.ops ∨ ∃ len, .leaf T len ∈ f.ops := by
  induction f generalizing p id pos with
  | nil => simp [Forest.flatten, Forest.ops]
  | leaf ty len rest ih =>
    have := ih p (id + 1) (pos + len)
    simp only [Forest.flatten, Forest.ops, List.mem_cons, exists_eq_or_imp, reduceCtorEq, false_or, this,
      BuilderOp.leaf.injEq]
    grind
  | node ty kids rest ih1 ih2 =>
    have h1 := ih1 (some id) (id + 1) pos
    have h2 := ih2 p (id + 1 + kids.size) (pos + kids.len)
    simp only [Forest.flatten, Forest.ops, List.mem_cons, List.mem_append, reduceCtorEq, false_or,
      BuilderOp.start.injEq, or_and_right, exists_or, h1, h2]
    grind

/-- What a finished parse consists of. -/
theorem parse_parts {d : Definition} {ty body : Nat} (hp : Progress d.lexer)
    (hstart : d.rules[0]? = some (.pub ty body false)) (hb : BoundedBinder d.binder) (hs : SpacelessStrings d)
    {n : Nat} {text : List Nat} {file : File Nat} {data : Definition.IncrementalData}
    (h : d.parse n text = .ok (file, data)) :
    ∃ (t : NodeType) (kids : Forest) (plain : List Event) (ticks : Nat), IsLexing d.lexer text data.tokens ∧
      synParse (Env.new none d.grammar d.isWs text data.tokens) n = .ok (data.events, ticks) ∧
      reshuffle data.events = .ok plain ∧ Places d.isWs plain data.tokens (Forest.node t kids .nil).ops ∧
      newFile text (Forest.node t kids .nil).ops = some file ∧
      file.nodes = (Forest.node t kids .nil).flatten none 0 0 := by
  obtain ⟨ts, h1, h2, h3, h4⟩ := C10_lex_tiles d.lexer hp text
  simp only [Definition.parse, h1, Result.ofOption, bind, Result.bind] at h
  cases h5 : d.parseTokens n none text ts with
  | panic => rw [h5] at h; cases h
  | timeout => rw [h5] at h; cases h
  | ok r =>
    rw [h5] at h
    obtain ⟨ops, events⟩ := r
    obtain ⟨t, kids, plain, h6, rfl, h7, h8, _, h9⟩ :=
      parseTokens_ok hstart hb h4 h3 (plainStrings_of_lexer hs h2 none) h5
    have hnodes : newFile text (Forest.node t kids .nil).ops = some ⟨text, (Forest.node t kids .nil).flatten none 0 0⟩ := by
      rw [newFile, buildNodes_roots _ rfl]
      rfl
    simp only [hnodes, pure, Result.ok.injEq, Prod.mk.injEq] at h
    obtain ⟨rfl, rfl⟩ := h
    simp only [Definition.parseTokens, bind, Result.bind] at h5
    cases hft : d.fileTy with
    | none => simp [hft, Result.ofOption] at h5
    | some fty =>
      simp only [hft, Result.ofOption] at h5
      split at h5
      · rename_i r hsyn
        obtain ⟨es, ticks⟩ := r
        simp only at h5
        split at h5
        · simp only [pure, Result.ok.injEq, Prod.mk.injEq] at h5
          obtain ⟨_, rfl⟩ := h5
          exact ⟨t, kids, plain, ticks, h2, hsyn, h7, h9, hnodes, rfl⟩
        · cases h5
        · cases h5
      · cases h5
      · cases h5

/-- With a grammar without links, the events are not moved, and a node of the events is a node of the file. -/
theorem types_of_events {file : File Nat} {t : NodeType} {kids : Forest} {plain : List Event} {isWs : NodeType → Bool}
    {tokens : List Token} (h2 : Places isWs plain tokens (Forest.node t kids .nil).ops)
    (h3 : file.nodes = (Forest.node t kids .nil).flatten none 0 0) (T : NodeType) :
    (.start T none ∈ plain → ∃ m : Nat, file.ty m = some T) ∧
      ((∃ m : Nat, file.ty m = some T) → (∃ fp, .start T fp ∈ plain) ∨ isWs T = true ∨ ∃ n, .token T n ∈ plain) := by
  have key := Forest.flatten_types (Forest.node t kids .nil) T none 0 0
  rw [← h3] at key
  constructor
  · intro h
    obtain ⟨x, hx, hT⟩ := key.2 (Or.inl (h2.starts h))
    obtain ⟨m, hm⟩ := List.getElem?_of_mem hx
    exact ⟨m, by simp [File.ty, File.data, hm, hT]⟩
  · rintro ⟨m, hm⟩
    obtain ⟨x, hx, hT⟩ : ∃ x : NodeData, file.nodes[m]? = some x ∧ x.ty = T := by simpa [File.ty, File.data] using hm
    rcases key.1 ⟨x, List.mem_of_getElem? hx, hT⟩ with h | ⟨len, h⟩
    · exact Or.inl (places_starts h2 h)
    · exact Or.inr (h2.leaves h)

/-- The grammar of JSON has neither operators nor injections. -/
theorem json_linked : Linked jsonGrammar := by
  have key : jsonRules.all (fun x => match x with | .inject _ _ => false | .pratt _ => false | _ => true) = true := by
    decide +kernel
  have h : ∀ (e : Nat) (x : Expr), jsonGrammar.rules[e]? = some x → (match x with | .inject _ _ => false | .pratt _ => false | _ => true) = true :=
    fun e x he => List.all_eq_true.1 key x (List.mem_of_getElem? he)
  exact ⟨fun e pre body he => by simpa using h _ _ he, fun e a t he => by simpa using h _ _ he⟩

theorem json_spaceless (lexer : Lexer Nat) : SpacelessStrings (jsonDefinition lexer) := by
  intro ty w h
  have key : jsonRules.all (fun x => match x with | .contextualToken _ _ => false | _ => true) = true := by decide +kernel
  have := List.all_eq_true.1 key _ h
  simp at this

namespace JsonParse

mutual

/-- The tree has no links, and its tokens are those of the value. -/
theorem json_tree : (v : Json) → v.Proper → (∀ ty fp, .start ty fp ∈ v.tree → fp = none ∧ ty ≠ ERROR) ∧
    ∀ ty n, .token ty n ∈ v.tree → ty ≠ ERROR
  | .primitive ty, hv => by
    simp only [Json.Proper, List.mem_cons, List.not_mem_nil, or_false] at hv
    simp only [Json.tree, List.mem_cons, List.not_mem_nil, or_false, reduceCtorEq, Event.start.injEq, Event.token.injEq,
      false_or]
    refine ⟨?_, ?_⟩
    · rintro ty fp ⟨rfl, rfl⟩
      exact ⟨rfl, by decide⟩
    · rintro ty n ⟨rfl, rfl⟩
      rcases hv with rfl | rfl | rfl | rfl <;> decide
  | .object fs, hv => by
    have ih := fields_tree fs hv
    simp only [Json.tree, List.mem_cons, List.mem_append, List.not_mem_nil, or_false, reduceCtorEq, Event.start.injEq,
      Event.token.injEq, false_or]
    refine ⟨?_, ?_⟩
    · rintro ty fp (⟨rfl, rfl⟩ | h)
      · exact ⟨rfl, by decide⟩
      · exact ih.1 _ _ h
    · rintro ty n (⟨rfl, rfl⟩ | h | ⟨rfl, rfl⟩)
      · decide
      · exact ih.2 _ _ h
      · decide
  | .array es, hv => by
    have ih := elements_tree es hv
    simp only [Json.tree, List.mem_cons, List.mem_append, List.not_mem_nil, or_false, reduceCtorEq, Event.start.injEq,
      Event.token.injEq, false_or]
    refine ⟨?_, ?_⟩
    · rintro ty fp (⟨rfl, rfl⟩ | h)
      · exact ⟨rfl, by decide⟩
      · exact ih.1 _ _ h
    · rintro ty n (⟨rfl, rfl⟩ | h | ⟨rfl, rfl⟩)
      · decide
      · exact ih.2 _ _ h
      · decide

theorem fields_tree : (vs : Jsons) → vs.Proper → (∀ ty fp, .start ty fp ∈ vs.fieldTrees → fp = none ∧ ty ≠ ERROR) ∧
    ∀ ty n, .token ty n ∈ vs.fieldTrees → ty ≠ ERROR
  | .nil, _ => by simp [Jsons.fieldTrees]
  | .cons v vs, hv => by
    have h1 := json_tree v hv.1
    have h2 := fields_tree vs hv.2
    have hcm : ∀ ty n, Event.token ty n ∈ vs.comma.map (Event.token · 1) → ty ≠ ERROR := by
      cases vs <;> simp [Jsons.comma, ERROR]
    have hcs : ∀ ty fp, Event.start ty fp ∉ vs.comma.map (Event.token · 1) := by
      cases vs <;> simp [Jsons.comma]
    simp only [Jsons.fieldTrees, List.mem_cons, List.mem_append, reduceCtorEq, Event.start.injEq, Event.token.injEq,
      false_or]
    refine ⟨?_, ?_⟩
    · rintro ty fp (⟨rfl, rfl⟩ | h | h | h)
      · exact ⟨rfl, by decide⟩
      · exact h1.1 _ _ h
      · exact (hcs _ _ h).elim
      · exact h2.1 _ _ h
    · rintro ty n (⟨rfl, rfl⟩ | ⟨rfl, rfl⟩ | h | h | h)
      · decide
      · decide
      · exact h1.2 _ _ h
      · exact hcm _ _ h
      · exact h2.2 _ _ h

theorem elements_tree : (vs : Jsons) → vs.Proper → (∀ ty fp, .start ty fp ∈ vs.elementTrees → fp = none ∧ ty ≠ ERROR) ∧
    ∀ ty n, .token ty n ∈ vs.elementTrees → ty ≠ ERROR
  | .nil, _ => by simp [Jsons.elementTrees]
  | .cons v vs, hv => by
    have h1 := json_tree v hv.1
    have h2 := elements_tree vs hv.2
    have hcm : ∀ ty n, Event.token ty n ∈ vs.comma.map (Event.token · 1) → ty ≠ ERROR := by
      cases vs <;> simp [Jsons.comma, ERROR]
    have hcs : ∀ ty fp, Event.start ty fp ∉ vs.comma.map (Event.token · 1) := by
      cases vs <;> simp [Jsons.comma]
    simp only [Jsons.elementTrees, List.mem_append]
    refine ⟨?_, ?_⟩
    · rintro ty fp (h | h | h)
      · exact h1.1 _ _ h
      · exact (hcs _ _ h).elim
      · exact h2.1 _ _ h
    · rintro ty n (h | h | h)
      · exact h1.2 _ _ h
      · exact hcm _ _ h
      · exact h2.2 _ _ h

end

theorem document_plain {v : Json} (hv : v.Proper) :
    (∀ ty fp, .start ty fp ∈ documentTree v → fp = none ∧ ty ≠ ERROR) ∧
      ∀ ty n, .token ty n ∈ documentTree v → ty ≠ ERROR := by
  have h := json_tree v hv
  simp only [documentTree, List.mem_cons, List.mem_append, List.not_mem_nil, or_false, reduceCtorEq, Event.start.injEq,
    false_or]
  refine ⟨?_, h.2⟩
  rintro ty fp (⟨rfl, rfl⟩ | h')
  · exact ⟨rfl, by decide⟩
  · exact h.1 _ _ h'

/-- A finished parse: what it has read is a document if and only if there is no ERROR, and then the events are
those of the document. -/
theorem parse_iff {lexer : Lexer Nat} (hp : Progress lexer) {n : Nat} {text : List Nat} {file : File Nat}
    {data : Definition.IncrementalData} (h : (jsonDefinition lexer).parse n text = .ok (file, data)) :
    ∃ (t : NodeType) (kids : Forest) (plain : List Event), IsLexing lexer text data.tokens ∧
      newFile text (Forest.node t kids .nil).ops = some file ∧
      Places jsonIsWs plain data.tokens (Forest.node t kids .nil).ops ∧
      ((∀ m : Nat, file.ty m ≠ some ERROR) →
        ∃ v : Json, v.Proper ∧ v.Document ∧ (data.tokens.filter fun t => !jsonIsWs t.ty).map (·.ty) = v.tokens) ∧
      ∀ v : Json, v.Proper → v.Document → (data.tokens.filter fun t => !jsonIsWs t.ty).map (·.ty) = v.tokens →
        plain = documentTree v ∧ ∀ m : Nat, file.ty m ≠ some ERROR := by
  obtain ⟨t, kids, plain, ticks, h1, h2, h3, h4, h5, h6⟩ := parse_parts (d := jsonDefinition lexer) (ty := 12)
    (body := 14) hp rfl (fun _ _ _ => Nat.zero_le _) (json_spaceless lexer) h
  have hlink : Linked (Env.new none (jsonDefinition lexer).grammar (jsonDefinition lexer).isWs text data.tokens).grammar :=
    json_linked
  obtain ⟨t', I, k, he, _, J, hJ, hI⟩ := Parser.synParse_reads (b := false) (ty := 12) (body := 14) rfl rfl h2
  have hA := Parser.passed_new (Env.new none (jsonDefinition lexer).grammar (jsonDefinition lexer).isWs text data.tokens).grammar
  have hIw : (Items.node t' I .nil).WF := by
    refine ⟨?_, trivial⟩
    rcases hI with ⟨_, rfl⟩ | ⟨S, _, hS, rfl⟩
    · exact hJ.wf hlink.linksOk hA
    · exact Items.WF.append (hJ.wf hlink.linksOk hA) ⟨hS.wf hlink.linksOk hA, trivial⟩
  have hplain : plain = (Items.node t' I .nil).resolve := by
    rw [he, reshuffle_encode _ hIw, Result.ok.injEq] at h3
    exact h3.symm
  have hin : Input (Env.new none (jsonDefinition lexer).grammar (jsonDefinition lexer).isWs text data.tokens) _
      ((data.tokens.filter fun t => !jsonIsWs t.ty).map (·.ty)) := input_start
  refine ⟨t, kids, plain, h1, h5, h4, ?_, ?_⟩
  · intro hno
    refine parse_clean rfl rfl hin h2 ?_
    intro hmem
    have : Event.start ERROR none ∈ plain := by
      rw [hplain]
      exact Items.resolve_starts (Or.inl ⟨none, by rw [← he]; exact hmem⟩)
    obtain ⟨m, hm⟩ := (types_of_events h4 h6 ERROR).1 this
    exact hno m hm
  · intro v hv hd hts
    rw [hts] at hin
    obtain ⟨n', ticks', hn'⟩ := parse_document rfl rfl hv hd hin
    have hev : data.events = documentTree v := by
      rcases Nat.le_total n n' with hle | hle
      · rcases synParse_le _ hle with h' | h'
        · rw [h2] at h'; cases h'
        · rw [h2, hn', Result.ok.injEq, Prod.mk.injEq] at h'; exact h'.1.symm
      · rcases synParse_le _ hle with h' | h'
        · rw [hn'] at h'; cases h'
        · rw [h2, hn', Result.ok.injEq, Prod.mk.injEq] at h'; exact h'.1
    have hpl : plain = documentTree v := by
      rw [hplain, Items.resolve_plain, ← he, hev]
      intro ty fp hmem
      rw [← he, hev] at hmem
      exact ((document_plain hv).1 ty fp hmem).1
    refine ⟨hpl, ?_⟩
    intro m hm
    rcases (types_of_events h4 h6 ERROR).2 ⟨m, hm⟩ with ⟨fp, h⟩ | h | ⟨k, h⟩
    · rw [hpl] at h
      exact ((document_plain hv).1 _ _ h).2 rfl
    · exact absurd h (show ¬ jsonIsWs ERROR = true by decide)
    · rw [hpl] at h
      exact (document_plain hv).2 _ _ h rfl

theorem parse_head {env : Env} (hg : env.grammar = jsonGrammar) {ts : List NodeType}
    (hi : Input env env.startPos ts) {n : Nat} {es : List Event} {ticks : Nat}
    (h : synParse env n = .ok (es, ticks)) : ts.head? = some 101 ∨ ts.head? = some 103 := by
  unfold synParse at h
  split at h
  case h_2 => cases h
  case h_3 => cases h
  rename_i u s hm
  unfold Parser.parseMain at hm
  obtain ⟨r, s1, h1, h⟩ := P.bind_ok.1 hm
  obtain ⟨p, s2, h2, h⟩ := P.bind_ok.1 h
  obtain ⟨rfl, rfl⟩ := P.lift_ok.1 h2
  rw [show env.grammar.startRule = 0 by rw [hg]; rfl] at h1
  by_cases h101 : ts.head? = some 101
  · exact Or.inl h101
  by_cases h103 : ts.head? = some 103
  · exact Or.inr h103
  exfalso
  have hf : Parser.Fails env 0 env.startPos := by
    refine Parser.fails_pub (ty := 12) (body := 14) (t := 111) (rule hg rfl) (by rw [hg]; rfl)
      (Parser.fails_or (parts := [12, 13]) (rule hg rfl) fun p hp => ?_)
    simp only [List.mem_cons, List.not_mem_nil, or_false] at hp
    rcases hp with rfl | rfl
    · exact Parser.fails_and (rule hg rfl) (by simp) (fails_list object_node hg hi h101)
    · exact Parser.fails_and (rule hg rfl) (by simp) (fails_list array_node hg hi h103)
  obtain ⟨s', hr⟩ := hf .new
  have := (Runs.det ⟨n, h1⟩ hr).1
  cases this

/-- What the certificate for `Certs` says about JSON: the start rule may fail, nothing else is wrong. -/
def safeCert : Check.SafeCert where
  loose := 2 ^ 101 - 1
  fails := 0
  reach := [([], 2 ^ 101 - 1, 2 ^ 101 - 1)]

theorem json_tame : safeCert.tame Check.jsonCert jsonGrammar = true := by decide +kernel

theorem ongoing_list {g : Grammar} {e first item : Nat} {ty bra ket comma : NodeType} {env : Env} {pos : Pos}
    (h : Parser.ListNode g e ty bra ket comma first item) (hg : env.grammar = g) {ts : List NodeType}
    (hi : Input env pos (bra :: ts)) : Parser.Ongoing env e pos := by
  subst hg
  obtain ⟨t, b, b1, ebra, lay, eket, close, body, h1, h2, h3, h4, h5, h6, h7, h8, h9⟩ := h
  exact Parser.ongoing_pub h1 h2 (Parser.ongoing_or h3 (List.mem_singleton.2 rfl) (Parser.ongoing_and h4 rfl
    (Parser.acts_token h5 hi).ongoing))

/-- A file that begins with a bracket is parsed. -/
theorem parse_goes {env : Env} (hg : env.grammar = jsonGrammar) (hc : env.cache = none) (hE : Parser.EnvOk env)
    {ts : List NodeType} (hi : Input env env.startPos ts) (ht : ts.head? = some 101 ∨ ts.head? = some 103) (n : Nat)
    (hn : (env.nonWs.length + 1) * 13 + 2 ≤ n) : ∃ r, synParse env n = .ok r := by
  cases h : synParse env n with
  | ok r => exact ⟨r, rfl⟩
  | timeout =>
    exact absurd h (Parser.synParse_enough (R := 12) (hg ▸ Check.json_terminating)
      (by intro cache evs h; rw [hc] at h; cases h) n hn)
  | panic =>
    exfalso
    obtain ⟨⟨h1, h2⟩, _⟩ := Check.tame_sound Check.json_cert json_tame
    rw [← hg] at h1 h2
    obtain ⟨s, hs⟩ := Parser.synParse_fails hE h1 h2 n h
    rw [show env.grammar.startRule = 0 by rw [hg]; rfl] at hs
    have go : Parser.Ongoing env 0 env.startPos := by
      cases ts with
      | nil => simp at ht
      | cons t ts =>
        refine Parser.ongoing_pub (ty := 12) (body := 14) (t := 111) (rule hg rfl) (by rw [hg]; rfl) ?_
        simp only [List.head?_cons, Option.some.injEq] at ht
        rcases ht with rfl | rfl
        · exact Parser.ongoing_or (parts := [12, 13]) (p := 12) (rule hg rfl) (by simp)
            (Parser.ongoing_and (rule hg rfl) rfl (ongoing_list object_node hg hi))
        · exact Parser.ongoing_or (parts := [12, 13]) (p := 13) (rule hg rfl) (by simp)
            (Parser.ongoing_and (rule hg rfl) rfl (ongoing_list array_node hg hi))
    exact go _ _ ⟨n, hs⟩

/-- Another one is not. -/
theorem parse_panics {env : Env} (hg : env.grammar = jsonGrammar) (hc : env.cache = none)
    {ts : List NodeType} (hi : Input env env.startPos ts) (ht : ¬ (ts.head? = some 101 ∨ ts.head? = some 103)) (n : Nat)
    (hn : (env.nonWs.length + 1) * 13 + 2 ≤ n) : synParse env n = .panic := by
  cases h : synParse env n with
  | ok r => exact absurd (parse_head hg hi h) ht
  | timeout =>
    exact absurd h (Parser.synParse_enough (R := 12) (hg ▸ Check.json_terminating)
      (by intro cache evs h; rw [hc] at h; cases h) n hn)
  | panic => rfl

mutual

theorem json_inj : (v w : Json) → v.Proper → w.Proper → ∀ a b, v.tokens ++ a = w.tokens ++ b → v = w ∧ a = b
  | .primitive ty, .primitive ty', _, _, a, b, h => by
    simp [Json.tokens] at h
    exact ⟨by rw [h.1], h.2⟩
  | .primitive ty, .object fs, hv, _, a, b, h => by
    simp [Json.tokens] at h
    obtain ⟨rfl, _⟩ := h
    simp [Json.Proper] at hv
  | .primitive ty, .array fs, hv, _, a, b, h => by
    simp [Json.tokens] at h
    obtain ⟨rfl, _⟩ := h
    simp [Json.Proper] at hv
  | .object fs, .primitive ty, _, hw, a, b, h => by
    simp [Json.tokens] at h
    obtain ⟨rfl, _⟩ := h
    simp [Json.Proper] at hw
  | .array fs, .primitive ty, _, hw, a, b, h => by
    simp [Json.tokens] at h
    obtain ⟨rfl, _⟩ := h
    simp [Json.Proper] at hw
  | .object fs, .array gs, _, _, a, b, h => by simp [Json.tokens] at h
  | .array fs, .object gs, _, _, a, b, h => by simp [Json.tokens] at h
  | .object fs, .object gs, hv, hw, a, b, h => by
    simp only [Json.tokens, List.cons_append, List.append_assoc, List.nil_append, List.cons.injEq, true_and] at h
    obtain ⟨rfl, rfl⟩ := fields_inj fs gs hv hw _ _ h
    exact ⟨rfl, rfl⟩
  | .array fs, .array gs, hv, hw, a, b, h => by
    simp only [Json.tokens, List.cons_append, List.append_assoc, List.nil_append, List.cons.injEq, true_and] at h
    obtain ⟨rfl, rfl⟩ := elements_inj fs gs hv hw _ _ h
    exact ⟨rfl, rfl⟩

theorem fields_inj : (vs ws : Jsons) → vs.Proper → ws.Proper → ∀ a b,
    vs.fields ++ 102 :: a = ws.fields ++ 102 :: b → vs = ws ∧ a = b
  | .nil, .nil, _, _, a, b, h => by simpa [Jsons.fields] using h
  | .nil, .cons w ws, _, _, a, b, h => by simp [Jsons.fields] at h
  | .cons v vs, .nil, _, _, a, b, h => by simp [Jsons.fields] at h
  | .cons v vs, .cons w ws, hv, hw, a, b, h => by
    simp only [Jsons.fields, List.cons_append, List.append_assoc, List.cons.injEq, true_and] at h
    obtain ⟨rfl, h⟩ := json_inj v w hv.1 hw.1 _ _ h
    have ih := fields_inj vs ws hv.2 hw.2 a b
    cases vs with
    | nil =>
      cases ws with
      | nil => simpa [Jsons.comma, Jsons.fields] using h
      | cons w ws => simp [Jsons.comma, Jsons.fields] at h
    | cons v vs =>
      cases ws with
      | nil => simp [Jsons.comma, Jsons.fields] at h
      | cons w ws =>
        obtain ⟨h1, h2⟩ := ih (by simpa [Jsons.comma] using h)
        exact ⟨by rw [h1], h2⟩

theorem elements_inj : (vs ws : Jsons) → vs.Proper → ws.Proper → ∀ a b,
    vs.elements ++ 104 :: a = ws.elements ++ 104 :: b → vs = ws ∧ a = b
  | .nil, .nil, _, _, a, b, h => by simpa [Jsons.elements] using h
  | .nil, .cons w ws, _, hw, a, b, h => by
    exfalso
    cases w <;> simp [Jsons.elements, Json.tokens] at h
    obtain ⟨rfl, _⟩ := h
    simp [Jsons.Proper, Json.Proper] at hw
  | .cons v vs, .nil, hv, _, a, b, h => by
    exfalso
    cases v <;> simp [Jsons.elements, Json.tokens] at h
    obtain ⟨rfl, _⟩ := h
    simp [Jsons.Proper, Json.Proper] at hv
  | .cons v vs, .cons w ws, hv, hw, a, b, h => by
    simp only [Jsons.elements, List.append_assoc] at h
    obtain ⟨rfl, h⟩ := json_inj v w hv.1 hw.1 _ _ h
    have ih := elements_inj vs ws hv.2 hw.2 a b
    cases vs with
    | nil =>
      cases ws with
      | nil => simpa [Jsons.comma, Jsons.elements] using h
      | cons w ws => simp [Jsons.comma, Jsons.elements] at h
    | cons v vs =>
      cases ws with
      | nil => simp [Jsons.comma, Jsons.elements] at h
      | cons w ws =>
        obtain ⟨h1, h2⟩ := ih (by simpa [Jsons.comma] using h)
        exact ⟨by rw [h1], h2⟩

end

end JsonParse

end Fall
