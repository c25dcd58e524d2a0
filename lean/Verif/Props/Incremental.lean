import Verif.Lemmas.Reparse
import Verif.Props.Syn

/-!
Property theorems for reparsing: C42 - C44.
-/

namespace Fall

open Spec Convert

/-! The examples use a lexer in which every character is a token and a grammar for files of items,
which are a digit and a plus sign, with anything else skipped; items are cached. Node types: 4 file,
5 item. -/

def charLexer : Lexer Nat
  | [] => ⟨0, 0⟩
  | c :: _ =>
    if c = 32 then ⟨1, 1⟩ else if c = 43 then ⟨3, 1⟩ else if 48 ≤ c ∧ c ≤ 57 then ⟨2, 1⟩ else ⟨0, 1⟩

theorem charLexer_len {c : Nat} {rest : List Nat} : (charLexer (c :: rest)).len = 1 := by
  unfold charLexer
  dsimp only
  repeat' split
  all_goals rfl

theorem charLexer_progress : Progress charLexer := by
  intro text h
  cases text with
  | nil => exact absurd rfl h
  | cons c rest => rw [charLexer_len]; simp

theorem charLexer_lookahead : OneByteLookahead charLexer := by
  intro text text' h1 h2
  cases text with
  | nil => exact absurd rfl h1
  | cons c rest =>
    rw [charLexer_len] at h2
    cases text' with
    | nil => simp at h2
    | cons c' rest' =>
      simp only [List.take_succ_cons, List.cons.injEq] at h2
      rw [h2.1]
      rfl

def itemDefinition : Definition where
  nodeTypes := [4, 5, 2, 3]
  rules := [.pub 0 1 false, .rep 2, .withSkip 5 3, .cached 4, .pub 1 6 false, .token 2,
    .and [5, 7] none, .token 3]
  binder _ _ _ := 0
  lexer := charLexer
  isWs ty := ty == 1

/-- The events for `1+ 2+`. -/
def itemEvents : List Event :=
  [.start 4 none,
    .cached 4 4, .start 5 none, .token 2 1, .token 3 1, .fin,
    .cached 4 4, .start 5 none, .token 2 1, .token 3 1, .fin, .fin]

/-- The tokens of `1+ 2+`. -/
def itemTokens : List Token := [⟨2, 1⟩, ⟨3, 1⟩, ⟨1, 1⟩, ⟨2, 1⟩, ⟨3, 1⟩]

/-- `3+ ` is inserted before `2+`. -/
def itemEdit : TextEdit Nat := ⟨[.copy ⟨0, 3⟩, .insert [51, 43, 32], .copy ⟨3, 5⟩]⟩

def itemCache : CacheMap := [((6, 4), (7, 4, 2)), ((0, 4), (2, 4, 2))]

example : (∃ file, itemDefinition.parse 20 [49, 43, 32, 50, 43] = .ok (file, ⟨itemTokens, itemEvents⟩)) ∧
    salvageSegments itemEvents itemTokens (· == 1) itemEdit = some itemCache := by
  refine ⟨⟨_, rfl⟩, ?_⟩
  decide +kernel

/-! ## C42 sound caches -/

/-- C42. A cache that is empty makes no difference, except that there may be a panic: a cached rule
tried at the end of the input leads to an index out of bounds. -/
theorem C42_empty_cache_partial (env : Env) (evs : List Event) (n : Nat)
    (x : List Event × Nat) (h : synParse { env with cache := none } n = .ok x) :
    synParse { env with cache := some ([], evs) } n = .ok x ∨
      synParse { env with cache := some ([], evs) } n = .panic := by
  obtain ⟨es, t⟩ := x
  have hno : Parser.NoHits { env with cache := some ([], evs) } := by
    rintro _ _ ⟨⟩
    rfl
  rcases Parser.synParse_sim (pan := True) (K := env.nonWs.length)
    (env1 := { env with cache := some ([], evs) }) (env2 := { env with cache := none })
    (Parser.envSim_cache env _ _)
    ⟨Parser.noHits_none rfl, Or.inr (Or.inl trivial)⟩ (Parser.simGrammar_strict hno) rfl rfl (fun _ => trivial) n h with
    ⟨_, h⟩ | ⟨t', h1, h2⟩
  · exact Or.inr h
  · rw [← h2 rfl]
    exact Or.inl h1

/-- C42. If every entry of the cache is what parsing there amounts to, and cached rules are tried
neither in lookahead nor in layers nor depend on what comes before, then parsing with the cache gives
the same events as with an empty cache. -/
theorem C42_sound_cache (env : Env) (hf : CacheFriendly env.grammar) (hs : SoundCache env) (n : Nat)
    (evs es : List Event) (t : Nat)
    (h : synParse { env with cache := some ([], evs) } n = .ok (es, t)) :
    ∃ t', synParse env n = .ok (es, t') := by
  have hno : Parser.NoHits { env with cache := some ([], evs) } := by
    rintro _ _ ⟨⟩
    rfl
  have hG := Parser.simGrammar_sound (env2 := { env with cache := some ([], evs) }) hf hs rfl rfl
    (Parser.runs_of_empty (env1 := { env with cache := some ([], evs) }) rfl rfl rfl rfl hno) (N := fun _ => True)
    fun _ _ _ => Parser.endRule_true
  rcases Parser.synParse_sim (pan := False) (K := env.nonWs.length) (env1 := env)
    (env2 := { env with cache := some ([], evs) }) (Parser.envSim_cache env _ _)
    ⟨hno, Or.inr (Or.inr (Or.inl ⟨by simp, rfl⟩))⟩ hG rfl rfl (by simp [Parser.Place]) n h with ⟨h, _⟩ | ⟨t', h1, _⟩
  · exact h.elim
  · exact ⟨t', h1⟩

/-- C42. Compared with a parse without a cache, the events are the same unless there is a panic. The
full statement does not have the second alternative, but see `C42_counterexample_end`. -/
theorem C42_sound_cache_partial (env : Env) (hf : CacheFriendly env.grammar) (hs : SoundCache env)
    (n : Nat) (es : List Event) (t : Nat)
    (h : synParse { env with cache := none } n = .ok (es, t)) :
    (∃ t', synParse env n = .ok (es, t')) ∨ synParse env n = .panic := by
  have hG := Parser.simGrammar_sound (env2 := { env with cache := none }) hf hs rfl rfl
    (fun n _ _ _ _ _ _ h => ⟨n, h⟩) (N := fun _ => True) fun _ _ _ => Parser.endRule_true
  rcases Parser.synParse_sim (pan := True) (K := env.nonWs.length) (env1 := env)
    (env2 := { env with cache := none }) (Parser.envSim_cache env _ _)
    ⟨Parser.noHits_none rfl, Or.inr (Or.inl trivial)⟩ hG rfl rfl (by simp [Parser.Place]) n h with ⟨_, h⟩ | ⟨t', h1, _⟩
  · exact Or.inr h
  · exact Or.inl ⟨t', h1⟩

/-- The environment for parsing `1+ 3+ 2+` after the edit. -/
def itemEnv : Env :=
  Env.new (some (itemCache, itemEvents)) itemDefinition.grammar (· == 1) [49, 43, 32, 51, 43, 32, 50, 43]
    [⟨2, 1⟩, ⟨3, 1⟩, ⟨1, 1⟩, ⟨2, 1⟩, ⟨3, 1⟩, ⟨1, 1⟩, ⟨2, 1⟩, ⟨3, 1⟩]

theorem itemGrammar_friendly : CacheFriendly itemDefinition.grammar := by
  have key : ∀ e, Confined itemDefinition.grammar e → e = 5 := by
    intro e h
    induction h with
    | not h | bound h | layer h =>
      have := List.mem_of_getElem? h
      simp [itemDefinition, Definition.grammar] at this
    | skip h =>
      have := List.mem_of_getElem? h
      simp [itemDefinition, Definition.grammar] at this
      exact this.1
    | part _ h hp ih =>
      subst ih
      cases h
      simp [parts] at hp
    | arg _ h _ ih =>
      subst ih
      cases h
  refine ⟨fun e body h hc => ?_, fun tys h => ?_, fun ty body h => ?_⟩
  · cases key e hc
    cases h
  · simp [itemDefinition, Definition.grammar] at h
  · simp [itemDefinition, Definition.grammar] at h

theorem itemEnv_sound : SoundCache itemEnv := by
  rintro cache evs ⟨⟩ e body hr cur off k a nE nT ho hl s r s' hp h
  have he : e = 3 ∧ body = 4 := by
    have := (List.getElem?_eq_some_iff.1 hr).1
    match e, this with
    | 0, _ | 1, _ | 2, _ | 4, _ | 5, _ | 6, _ | 7, _ => cases hr
    | 3, _ => cases hr; exact ⟨rfl, rfl⟩
  obtain ⟨rfl, rfl⟩ := he
  have hcur := (List.getElem?_eq_some_iff.1 ho).1
  obtain ⟨ticks, events, repl, pred, ctx, args, prev⟩ := s
  cases hp
  match cur, hcur with
  | 0, _ =>
    cases ho
    cases hl
    obtain ⟨rfl, rfl⟩ := h.det ⟨10, rfl⟩
    simp
    decide
  | 1, _ => cases ho; cases hl
  | 2, _ => cases ho; cases hl
  | 3, _ => cases ho; cases hl
  | 4, _ =>
    cases ho
    cases hl
    obtain ⟨rfl, rfl⟩ := h.det ⟨10, rfl⟩
    simp
    decide
  | 5, _ => cases ho; cases hl

example : ∃ t t', synParse { itemEnv with cache := some ([], []) } 20 =
    .ok ([.start 4 none,
      .cached 4 4, .start 5 none, .token 2 1, .token 3 1, .fin,
      .cached 4 4, .start 5 none, .token 2 1, .token 3 1, .fin,
      .cached 4 4, .start 5 none, .token 2 1, .token 3 1, .fin, .fin], t) ∧
    synParse itemEnv 20 =
    .ok ([.start 4 none,
      .cached 4 4, .start 5 none, .token 2 1, .token 3 1, .fin,
      .cached 4 4, .start 5 none, .token 2 1, .token 3 1, .fin,
      .cached 4 4, .start 5 none, .token 2 1, .token 3 1, .fin, .fin], t') ∧ t' < t := by
  refine ⟨_, _, rfl, rfl, ?_⟩
  decide +kernel

/-- Panics are possible: `file = <rep item>` with `item` cached; at the end of the input the position is
looked up in the list of significant tokens. There is not even an entry in the cache. -/
theorem C42_counterexample_end :
    ∃ env n es t, CacheFriendly env.grammar ∧ SoundCache env ∧
      synParse { env with cache := none } n = .ok (es, t) ∧ synParse env n = .panic := by
  refine ⟨Env.new (some ([], [])) ⟨[4, 5, 2], [.pub 0 1 false, .rep 2, .cached 3, .pub 1 4 false, .token 2], 0⟩
    (· == 1) [49] [⟨2, 1⟩], 10, _, _, ⟨fun e body h hc => ?_, fun tys h => ?_, fun ty body h => ?_⟩, ?_, rfl, ?_⟩
  · have key : ∀ e, ¬ Confined ⟨[4, 5, 2], [.pub 0 1 false, .rep 2, .cached 3, .pub 1 4 false, .token 2], 0⟩ e := by
      intro e h
      induction h with
      | not h | skip h | bound h | layer h =>
        have := List.mem_of_getElem? h
        simp at this
      | part _ _ _ ih | arg _ _ _ ih => exact ih
    exact key e hc
  · simp [Env.new] at h
  · simp [Env.new] at h
  · rintro _ _ ⟨⟩ e body hr cur off k a nE nT ho hl
    cases hl
  · decide +kernel

/-- Cached rules in layers: the entry reaches beyond the end of the layer, and what follows runs into the
end of the input; here `file = #num item` for
`1+`, where `item` is a digit and a plus sign. The entry is right outside of the layer. -/
theorem C42_counterexample_layer :
    ∃ env n es t, SoundCache env ∧
      synParse { env with cache := some ([], []) } n = .ok (es, t) ∧ synParse env n = .panic := by
  refine ⟨Env.new (some ([((0, 3), (0, 4, 2))], [.start 5 none, .token 2 1, .token 3 1, .fin]))
    ⟨[4, 5, 2, 3], [.pub 0 1 false, .layer 5 2, .cached 3, .pub 1 4 false, .and [5, 6] none, .token 2, .token 3], 0⟩
    (· == 1) [49, 43] [⟨2, 1⟩, ⟨3, 1⟩], 10, _, _, ?_, rfl, ?_⟩
  · rintro _ _ ⟨⟩ e body hr cur off k a nE nT ho hl s r s' hp h
    have he : e = 2 ∧ body = 3 := by
      have := (List.getElem?_eq_some_iff.1 hr).1
      match e, this with
      | 0, _ | 1, _ | 3, _ | 4, _ | 5, _ | 6, _ => cases hr
      | 2, _ => cases hr; exact ⟨rfl, rfl⟩
    obtain ⟨rfl, rfl⟩ := he
    have hcur := (List.getElem?_eq_some_iff.1 ho).1
    obtain ⟨ticks, events, repl, pred, ctx, args, prev⟩ := s
    cases hp
    match cur, hcur with
    | 0, _ =>
      cases ho
      cases hl
      obtain ⟨rfl, rfl⟩ := h.det ⟨10, rfl⟩
      simp
      decide
    | 1, _ => cases ho; cases hl
  · decide +kernel

/-! ## C43 salvaging -/

/-- C43. Every entry that is salvaged is for a marked fragment of the old events without errors, with
the numbers of events and tokens of the fragment. If the fragment, up to the next significant token, is
not empty, its text is found unchanged in the new text at the offset of the entry.

The full statement does not exclude empty fragments, see `C43_counterexample`. -/
theorem C43_salvage_partial (isWs : NodeType → Bool) (oldEvents : List Event) (oldTokens : List Token)
    (oldText newText : List Nat) (edit : TextEdit Nat) (cache : CacheMap)
    (hf : Fits isWs (counts oldEvents) oldTokens) (ho : OrderedCopies 0 edit.ops)
    (ha : edit.apply (Text.ofBuf oldText) = some newText)
    (h : salvageSegments oldEvents oldTokens isWs edit = some cache) (off key a nE nT : Nat)
    (hm : ((off, key), (a, nE, nT)) ∈ cache) :
    ∃ pre frag post, oldEvents = pre ++ .cached key nE :: (frag ++ post) ∧
      (oldEvents.drop a).take nE = frag ∧ frag.length = nE ∧ (counts frag).sum = nT ∧
      (∀ ty fp, .start ty fp ∈ frag → ty ≠ ERROR) ∧
      ∀ st e, st = sigOffset isWs oldTokens (counts pre).sum →
        e = sigOffset isWs oldTokens ((counts pre).sum + nT) → st < e →
        off + (e - st) ≤ newText.length ∧
        bytes newText off (off + (e - st)) = bytes oldText st e := by
  rw [apply_eq (Text.ofBuf_wf _) (Text.asStr_ofBuf _)] at ha
  have hat := Salvage.skipWs_at (pre := []) (p := 0) (tokens := oldTokens) (isWs := isWs) rfl rfl hf
  obtain ⟨pre, frag, post, h1, h2, h3, h4, h5, xs, r, ys, h6, h7, h8⟩ :=
    (Salvage.loop_entries (ops := edit.ops) oldEvents.length [] oldEvents _ _ [] cache rfl hat.1 hat.2
      (by simp) h off key a nE nT hm).frag
  refine ⟨pre, frag, post, h1, ?_, h3, h5, h4, ?_⟩
  · rw [List.nil_append] at h1
    rw [h1, ← h2, ← h3, List.append_cons]
    simp
  · rintro st e rfl rfl hlt
    have := Salvage.place_copy ha ho (range := ⟨_, _⟩) hlt h6 h7
    rw [h8]
    exact this

example : Fits (· == 1) (counts itemEvents) itemTokens ∧ OrderedCopies 0 itemEdit.ops ∧
    itemEdit.apply (Text.ofBuf [49, 43, 32, 50, 43]) = some [49, 43, 32, 51, 43, 32, 50, 43] ∧
    salvageSegments itemEvents itemTokens (· == 1) itemEdit = some itemCache ∧
    sigOffset (· == 1) itemTokens (counts (itemEvents.take 6)).sum = 3 := by
  refine ⟨?_, ?_, rfl, rfl, rfl⟩
  · exact ⟨[], [_], _, rfl, by simp, rfl, by simp, [], [_], _, rfl, by simp, rfl, by simp, [_], [_], _, rfl,
      by simp, rfl, by simp, [], [_], _, rfl, by simp, rfl, by simp, by simp [Fits]⟩
  · simp [OrderedCopies, itemEdit]

/-- C43. Salvaging does not panic if the marks fit the events and the events record no more tokens than
there are. -/
theorem C43_salvage_total (isWs : NodeType → Bool) (oldEvents : List Event) (oldTokens : List Token)
    (edit : TextEdit Nat) (hm : MarksFit oldEvents)
    (hc : (counts oldEvents).sum ≤ (oldTokens.filter fun t => !isWs t.ty).length) :
    ∃ cache, salvageSegments oldEvents oldTokens isWs edit = some cache := by
  unfold salvageSegments
  refine Salvage.loop_total _ _ _ _ _ _ _ (Nat.le_refl _) hm ?_
  rw [Salvage.skipWs_sig]
  exact hc

example : MarksFit itemEvents ∧
    (counts itemEvents).sum ≤ (itemTokens.filter fun t => !(t.ty == 1)).length := by
  refine ⟨by simp [MarksFit, itemEvents], by decide⟩

/-- An empty fragment between two adjacent copies. Besides the right entry there is one for offset 0,
as the length of the first copy is not added once the fragment has been found in it. In the text
`1+` the fragment was followed by the plus sign, at offset 0 it is followed by the digit. -/
theorem C43_counterexample :
    ∃ (oldEvents : List Event) (oldTokens : List Token) (text : List Nat) (edit : TextEdit Nat)
      (cache : CacheMap) (pre post : List Event),
      Fits (· == 1) (counts oldEvents) oldTokens ∧ OrderedCopies 0 edit.ops ∧
      edit.apply (Text.ofBuf text) = some text ∧
      salvageSegments oldEvents oldTokens (· == 1) edit = some cache ∧
      oldEvents = pre ++ .cached 4 2 :: post ∧ sigOffset (· == 1) oldTokens (counts pre).sum = 1 ∧
      ((1, 4), (3, 2, 0)) ∈ cache ∧ ((0, 4), (3, 2, 0)) ∈ cache := by
  refine ⟨[.start 4 none, .token 2 1, .cached 4 2, .start 5 none, .fin, .token 3 1, .fin],
    [⟨2, 1⟩, ⟨3, 1⟩], [49, 43], ⟨[.copy ⟨0, 1⟩, .copy ⟨1, 2⟩]⟩, _, [.start 4 none, .token 2 1], _, ?_, ?_,
    rfl, rfl, rfl, rfl, ?_, ?_⟩
  · exact ⟨[], [_], _, rfl, by simp, rfl, by simp, [], [_], _, rfl, by simp, rfl, by simp, by simp [Fits]⟩
  · simp [OrderedCopies]
  · decide
  · decide

/-! ## C44 reparsing -/

/-- C44. Without cached rules, reparsing after an edit is the same as parsing the new text; this
includes budgets that are too small and panics.

The full statement allows for cached rules, see `C44_counterexample`. -/
theorem C44_reparse_partial (d : Definition) (hno : ∀ body, .cached body ∉ d.rules)
    (hp : Progress d.lexer) (hla : OneByteLookahead d.lexer) (ty body : Nat) (b : Bool)
    (hs : d.rules[0]? = some (.pub ty body b)) (n0 : Nat) (oldText newText : List Nat)
    (file : File Nat) (data : Definition.IncrementalData)
    (hold : d.parse n0 oldText = .ok (file, data)) (edit : TextEdit Nat)
    (ha : edit.apply (Text.ofBuf oldText) = some newText) (n : Nat) :
    d.reparse n oldText data edit = d.parse n newText := by
  obtain ⟨hl, t, hsyn⟩ := Definition.parse_data hold
  obtain ⟨ts, region, h1, h2⟩ := relex_correct d.lexer hp hla oldText newText data.tokens hl edit ha
  obtain ⟨cache, h3⟩ := salvage_parse_total hs hsyn edit
  rw [Definition.parse_eq h2, Definition.reparse_eq ha h1 h3]
  congr 1
  exact (Parser.synParse_bare (env := Env.new (some (cache, data.events)) d.grammar d.isWs newText ts)
    hno n).symm

/-- C44. Whatever edits are made, the file an editor holds is the file of a parse of its text. -/
theorem C44_session_partial (d : Definition) (hno : ∀ body, .cached body ∉ d.rules)
    (hp : Progress d.lexer) (hla : OneByteLookahead d.lexer) (ty body : Nat) (b : Bool)
    (hs : d.rules[0]? = some (.pub ty body b)) (text : List Nat)
    (file : File Nat) (data : Definition.IncrementalData) (h : Session d text file data) :
    ∃ n, d.parse n text = .ok (file, data) := by
  induction h with
  | parse h => exact ⟨_, h⟩
  | @edit n text file data text' file' data' edit _ ha hr ih =>
    obtain ⟨m, hm⟩ := ih
    exact ⟨n, by rw [← hr, C44_reparse_partial d hno hp hla ty body b hs m text text' file data hm edit ha n]⟩

/-- C44. With cached rules, reparsing is the same as parsing, except for panics, if the cache that is
salvaged happens to be sound for the new text. -/
theorem C44_reparse_sound_partial (d : Definition) (hf : CacheFriendly d.grammar)
    (hp : Progress d.lexer) (hla : OneByteLookahead d.lexer) (ty body : Nat) (b : Bool)
    (hs : d.rules[0]? = some (.pub ty body b)) (n0 : Nat) (oldText newText : List Nat)
    (file : File Nat) (data : Definition.IncrementalData)
    (hold : d.parse n0 oldText = .ok (file, data)) (edit : TextEdit Nat)
    (ha : edit.apply (Text.ofBuf oldText) = some newText)
    (hc : ∀ cache tokens, salvageSegments data.events data.tokens d.isWs edit = some cache →
      lex d.lexer newText = some tokens →
      SoundCache (Env.new (some (cache, data.events)) d.grammar d.isWs newText tokens))
    (n : Nat) (x : File Nat × Definition.IncrementalData) (hnew : d.parse n newText = .ok x) :
    d.reparse n oldText data edit = .ok x ∨ d.reparse n oldText data edit = .panic := by
  obtain ⟨hl, t, hsyn⟩ := Definition.parse_data hold
  obtain ⟨ts, region, h1, h2⟩ := relex_correct d.lexer hp hla oldText newText data.tokens hl edit ha
  obtain ⟨cache, h3⟩ := salvage_parse_total hs hsyn edit
  obtain ⟨file', data'⟩ := x
  obtain ⟨h4, t', h5⟩ := Definition.parse_data hnew
  rw [h2] at h4
  cases h4
  rw [Definition.parse_eq h2] at hnew
  rw [Definition.reparse_eq ha h1 h3]
  rcases C42_sound_cache_partial (Env.new (some (cache, data.events)) d.grammar d.isWs newText data'.tokens)
    hf (hc cache _ h3 h2) n data'.events t' h5 with ⟨t'', h6⟩ | h6
  · refine Or.inl ?_
    rw [h6, ← hnew, h5]
    rfl
  · refine Or.inr ?_
    rw [h6]
    unfold Definition.finish
    cases d.fileTy <;> rfl

theorem ok_eval_and {β γ : Type} [DecidableEq γ] {r : Result (β × γ)} {y : γ} {p : β → Prop} [DecidablePred p]
    (h : (match r with | .ok (x, y') => decide (y' = y ∧ p x) | _ => false) = true) :
    ∃ x, r = .ok (x, y) ∧ p x := by
  cases r with
  | ok x =>
    obtain ⟨x, y'⟩ := x
    obtain ⟨h1, h2⟩ := of_decide_eq_true h
    cases h1
    exact ⟨x, rfl, h2⟩
  | panic => cases h
  | timeout => cases h

theorem ok_eval {β γ : Type} [DecidableEq γ] {r : Result (β × γ)} {y : γ}
    (h : (match r with | .ok (_, y') => decide (y' = y ∧ True) | _ => false) = true) :
    ∃ x, r = .ok (x, y) := by
  obtain ⟨x, h, _⟩ := ok_eval_and (p := fun _ => True) h
  exact ⟨x, h⟩

/-- The grammar of items without the cache. -/
def plainDefinition : Definition :=
  { itemDefinition with rules := [.pub 0 1 false, .rep 2, .withSkip 5 3, .or [4], .pub 1 6 false, .token 2,
    .and [5, 7] none, .token 3] }

/-- Deletes the first item of what `itemEdit` gives and adds garbage. -/
def itemEdit' : TextEdit Nat := ⟨[.copy ⟨3, 5⟩, .insert [43, 43], .copy ⟨5, 8⟩]⟩

example : (∀ body, .cached body ∉ plainDefinition.rules) ∧ Progress plainDefinition.lexer ∧
    OneByteLookahead plainDefinition.lexer ∧ plainDefinition.rules[0]? = some (.pub 0 1 false) ∧
    ∃ file data, Session plainDefinition [51, 43, 43, 43, 32, 50, 43] file data ∧ data.events.length = 14 := by
  refine ⟨by simp [plainDefinition], charLexer_progress, charLexer_lookahead, rfl, ?_⟩
  obtain ⟨_, h1⟩ := ok_eval (r := plainDefinition.parse 20 [49, 43, 32, 50, 43]) (y := ⟨itemTokens,
    [.start 4 none, .start 5 none, .token 2 1, .token 3 1, .fin, .start 5 none, .token 2 1, .token 3 1, .fin,
      .fin]⟩) (by decide +kernel)
  obtain ⟨_, h2⟩ := ok_eval (r := plainDefinition.reparse 20 [49, 43, 32, 50, 43] ⟨itemTokens,
    [.start 4 none, .start 5 none, .token 2 1, .token 3 1, .fin, .start 5 none, .token 2 1, .token 3 1, .fin,
      .fin]⟩ itemEdit) (y := ⟨[⟨2, 1⟩, ⟨3, 1⟩, ⟨1, 1⟩, ⟨2, 1⟩, ⟨3, 1⟩, ⟨1, 1⟩, ⟨2, 1⟩, ⟨3, 1⟩],
    [.start 4 none, .start 5 none, .token 2 1, .token 3 1, .fin, .start 5 none, .token 2 1, .token 3 1, .fin,
      .start 5 none, .token 2 1, .token 3 1, .fin, .fin]⟩) (by decide +kernel)
  obtain ⟨_, h3⟩ := ok_eval (r := plainDefinition.reparse 20 [49, 43, 32, 51, 43, 32, 50, 43]
    ⟨[⟨2, 1⟩, ⟨3, 1⟩, ⟨1, 1⟩, ⟨2, 1⟩, ⟨3, 1⟩, ⟨1, 1⟩, ⟨2, 1⟩, ⟨3, 1⟩],
    [.start 4 none, .start 5 none, .token 2 1, .token 3 1, .fin, .start 5 none, .token 2 1, .token 3 1, .fin,
      .start 5 none, .token 2 1, .token 3 1, .fin, .fin]⟩ itemEdit')
    (y := ⟨[⟨2, 1⟩, ⟨3, 1⟩, ⟨3, 1⟩, ⟨3, 1⟩, ⟨1, 1⟩, ⟨2, 1⟩, ⟨3, 1⟩],
    [.start 4 none, .start 5 none, .token 2 1, .token 3 1, .fin, .start ERROR none, .token 3 1, .token 3 1, .fin,
      .start 5 none, .token 2 1, .token 3 1, .fin, .fin]⟩) (by decide +kernel)
  exact ⟨_, _, .edit itemEdit' (.edit itemEdit (.parse h1) rfl h2) rfl h3, by decide⟩

example : ∃ file data, itemDefinition.parse 20 [49, 43, 32, 50, 43] = .ok (file, data) ∧
    itemEdit.apply (Text.ofBuf [49, 43, 32, 50, 43]) = some [49, 43, 32, 51, 43, 32, 50, 43] ∧
    (∀ cache tokens, salvageSegments data.events data.tokens itemDefinition.isWs itemEdit = some cache →
      lex itemDefinition.lexer [49, 43, 32, 51, 43, 32, 50, 43] = some tokens →
      SoundCache (Env.new (some (cache, data.events)) itemDefinition.grammar itemDefinition.isWs
        [49, 43, 32, 51, 43, 32, 50, 43] tokens)) ∧
    ∃ x, itemDefinition.parse 20 [49, 43, 32, 51, 43, 32, 50, 43] = .ok x := by
  refine ⟨_, _, rfl, rfl, ?_, _, rfl⟩
  intro cache tokens h1 h2
  cases h1
  cases h2
  exact itemEnv_sound

/-- Items are a digit and an optional plus sign. -/
def optDefinition : Definition :=
  { itemDefinition with rules := [.pub 0 1 false, .rep 2, .withSkip 5 3, .cached 4, .pub 1 6 false,
    .token 2, .and [5, 8] none, .token 3, .opt 7] }

/-- Reparsing is not the same as parsing in general: a fragment is reused if its text has not changed,
but what comes after the fragment can make a difference. Here items are a digit with an optional plus
sign; after `1` is parsed, a plus sign is appended. Reparsing gives an item `1` and an error, parsing gives
an item `1+`. -/
theorem C44_counterexample :
    ∃ (d : Definition) (n : Nat) (oldText newText : List Nat) (edit : TextEdit Nat) (file file1 file2 : File Nat)
      (data data1 data2 : Definition.IncrementalData),
      Progress d.lexer ∧ OneByteLookahead d.lexer ∧ CacheFriendly d.grammar ∧
      d.parse n oldText = .ok (file, data) ∧ edit.apply (Text.ofBuf oldText) = some newText ∧
      d.reparse n oldText data edit = .ok (file1, data1) ∧ d.parse n newText = .ok (file2, data2) ∧
      .start ERROR none ∈ data1.events ∧ .start ERROR none ∉ data2.events ∧ file1 ≠ file2 := by
  obtain ⟨f, h1⟩ := ok_eval (r := optDefinition.parse 20 [49]) (y := ⟨[⟨2, 1⟩],
    [.start 4 none, .cached 4 3, .start 5 none, .token 2 1, .fin, .fin]⟩) (by decide +kernel)
  obtain ⟨f1, h2, h2'⟩ := ok_eval_and (r := optDefinition.reparse 20 [49] ⟨[⟨2, 1⟩],
    [.start 4 none, .cached 4 3, .start 5 none, .token 2 1, .fin, .fin]⟩ ⟨[.copy ⟨0, 1⟩, .insert [43]]⟩)
    (p := fun f => f.nodes.length = 5) (y := ⟨[⟨2, 1⟩, ⟨3, 1⟩],
      [.start 4 none, .cached 4 3, .start 5 none, .token 2 1, .fin, .start ERROR none, .token 3 1, .fin, .fin]⟩)
    (by decide +kernel)
  obtain ⟨f2, h3, h3'⟩ := ok_eval_and (r := optDefinition.parse 20 [49, 43])
    (p := fun f => f.nodes.length = 4) (y := ⟨[⟨2, 1⟩, ⟨3, 1⟩],
      [.start 4 none, .cached 4 4, .start 5 none, .token 2 1, .token 3 1, .fin, .fin]⟩)
    (by decide +kernel)
  refine ⟨optDefinition, 20, [49], [49, 43], ⟨[.copy ⟨0, 1⟩, .insert [43]]⟩, f, f1, f2, _, _, _,
    charLexer_progress, charLexer_lookahead, ?_, h1, rfl, h2, h3, by decide, by decide, ?_⟩
  · have key : ∀ e, Confined ⟨[4, 5, 2, 3], [.pub 0 1 false, .rep 2, .withSkip 5 3, .cached 4, .pub 1 6 false,
        .token 2, .and [5, 8] none, .token 3, .opt 7], 0⟩ e → e = 5 := by
      intro e h
      induction h with
      | not h | bound h | layer h =>
        have := List.mem_of_getElem? h
        simp at this
      | skip h =>
        have := List.mem_of_getElem? h
        simp at this
        exact this.1
      | part _ h hp ih =>
        subst ih
        cases h
        simp [parts] at hp
      | arg _ h _ ih =>
        subst ih
        cases h
    refine ⟨fun e body h hc => ?_, fun tys h => ?_, fun ty body h => ?_⟩
    · cases key e hc
      cases h
    · simp [optDefinition, Definition.grammar] at h
    · simp [optDefinition, Definition.grammar] at h
  · rintro rfl
    omega

end Fall
