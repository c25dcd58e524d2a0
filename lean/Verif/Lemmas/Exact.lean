import Verif.Lemmas.JsonFile
import Verif.Spec.Codegen

/-!
What rules read when they add no error, and languages that a grammar reads exactly.
-/

namespace Fall

open Spec Convert

namespace Parser

variable {env : Env} {e N : Nat} {pos q : Pos} {s s' : PState}

theorem Sound.mono {A B : List NodeType → Prop} (h : Sound env e A N) (hab : ∀ x, A x → B x) : Sound env e B N := by
  intro pos ts s q s' h1 h2 h3 h4 h5
  obtain ⟨x, rest, k1, k2, k3⟩ := h pos ts s q s' h1 h2 h3 h4 h5
  exact ⟨x, rest, hab x k1, k2, k3⟩

theorem Sound.le {A : List NodeType → Prop} {M : Nat} (h : Sound env e A N) (hM : M ≤ N) : Sound env e A M := by
  intro pos ts s q s' h1
  exact h pos ts s q s' (by omega)

theorem sound_token {t : NodeType} (hx : IsToken env.grammar e t) : Sound env e (· = [t]) N := by
  intro pos ts s q s' _ hi _ h _
  obtain ⟨us, rfl, rfl, _⟩ := clean_token hx hi h
  exact ⟨[t], us, rfl, rfl, rfl⟩

theorem sound_not {body : Nat} (he : env.grammar.rules[e]? = some (.not body)) : Sound env e (· = []) N := by
  intro pos ts s q s' _ hi _ h _
  obtain ⟨rb, s8, _, k⟩ := (runs_not he).1 h
  rcases k with ⟨_, k, _⟩ | ⟨_, k, _⟩
  · cases k
    exact ⟨[], ts, rfl, rfl, rfl⟩
  · cases k

theorem sound_pub (hc : env.cache = none) {ty body : Nat} {t : NodeType} {A : List NodeType → Prop}
    (he : env.grammar.rules[e]? = some (.pub ty body false)) (ht : env.grammar.nodeTypes[ty]? = some t)
    (h : Sound env body A N) : Sound env e A N := by
  intro pos ts s q s' hts hi hp hr hcl
  obtain ⟨s1, s2, k1, k2, k3⟩ := clean_pub hc he ht hr hcl
  exact h _ _ _ _ _ hts hi (k2.trans hp) k1 k3

theorem sound_withSkip (hc : env.cache = none) {first body : Nat} {A : List NodeType → Prop}
    (he : env.grammar.rules[e]? = some (.withSkip first body)) (h : Sound env body A N) : Sound env e A N := by
  intro pos ts s q s' hts hi hp hr hcl
  obtain ⟨s1, q1, s0, _, k1, k2, k3⟩ := clean_withSkip hc hp he hr hcl
  have := errs_mono hc k1
  exact h _ _ _ _ _ hts hi k2 k1 (by omega)

theorem sound_or {parts : List Nat} {A : List NodeType → Prop}
    (he : env.grammar.rules[e]? = some (.or parts)) (h : ∀ p, p ∈ parts → Sound env p A N) : Sound env e A N := by
  intro pos ts s q s' hts hi hp hr hcl
  obtain ⟨s1, k1, k2⟩ := (runs_or he).1 hr
  rw [if_neg (by simp)] at k2
  subst k2
  rw [← errs_ticked s] at hcl
  have hp : (ticked s).predicate = false := hp
  clear hr he
  generalize ticked s = s0 at *
  generalize hr : some q = r at k1
  induction k1 with
  | none => cases hr
  | found k => cases hr; exact h _ List.mem_cons_self _ _ _ _ _ hts hi hp k hcl
  | next k k' ih =>
    have e1 : errs _ = errs _ := congrArg (List.count _) k.fail_events
    exact ih (fun p hp => h p (List.mem_cons_of_mem _ hp)) hi (by rw [hcl, ← e1])
      ((Runs.scope k).1.trans hp) hr

/-- What a sequence reads. -/
def Chained : List (List NodeType → Prop) → List NodeType → Prop
  | [], z => z = []
  | A :: As, z => ∃ x y, A x ∧ Chained As y ∧ z = x ++ y

theorem turn_sound (hc : env.cache = none) {parts : List Nat} {As : List (List NodeType → Prop)}
    (h : Pointwise (fun p A => Sound env p A N) parts As) {pos q : Pos} {s s' : PState} {ts : List NodeType}
    (hts : ts.length < N) (hi : Input env pos ts) (hp : s.predicate = false)
    (hr : InTurn env parts pos s parts.length q s') (hcl : errs s' = errs s) :
    ∃ x rest, Chained As x ∧ ts = x ++ rest ∧ q = ⟨pos.cur + x.length, pos.stop⟩ := by
  induction h generalizing pos s ts with
  | nil =>
    obtain ⟨rfl, _⟩ := turn_nil hr
    exact ⟨[], ts, rfl, rfl, rfl⟩
  | cons hx _ ih =>
    obtain ⟨q1, s1, h1, h2, h3, h4, h5⟩ := turn_cons hc hr hcl
    obtain ⟨x, rest, hA, rfl, rfl⟩ := hx _ _ _ _ _ hts hi hp h1 h3
    obtain ⟨y, rest', hy, rfl, rfl⟩ := ih (ts := rest) (by simp at hts; omega) (Input.after hi) (h5.trans hp) h2 h4
    exact ⟨x ++ y, rest', ⟨x, y, hA, hy, rfl⟩, by simp, by simp [Nat.add_assoc]⟩

theorem sound_and (hc : env.cache = none) {parts : List Nat} {commit : Option Nat} {As : List (List NodeType → Prop)}
    (he : env.grammar.rules[e]? = some (.and parts commit)) (h : Pointwise (fun p A => Sound env p A N) parts As) :
    Sound env e (Chained As) N := by
  intro pos ts s q s' hts hi hp hr hcl
  exact turn_sound hc h hts hi (by exact hp) (clean_and hp hc he hr hcl) (by rw [errs_ticked]; exact hcl)

theorem sound_rep (hc : env.cache = none) {body : Nat} {A : List NodeType → Prop}
    (he : env.grammar.rules[e]? = some (.rep body)) (h : Sound env body A N) :
    Sound env e (fun z => ∃ xs : List (List NodeType), (∀ x, x ∈ xs → A x) ∧ z = xs.flatten) N := by
  intro pos ts s q s' hts hi hp hr hcl
  obtain ⟨q2, hq, hrep⟩ := (runs_rep he).1 hr
  cases hq
  rw [← errs_ticked s] at hcl
  have hp : (ticked s).predicate = false := hp
  clear hr he
  generalize ticked s = s0 at *
  induction hrep generalizing ts with
  | stop k => exact ⟨[], ts, ⟨[], by simp, rfl⟩, rfl, rfl⟩
  | step hstep hrest ih =>
    have m1 := errs_mono hc hstep
    have m2 := repeats_errs hc hrest
    obtain ⟨x, rest, hx, rfl, rfl⟩ := h _ _ _ _ _ hts hi hp hstep (by omega)
    obtain ⟨y, rest', ⟨xs, hxs, rfl⟩, rfl, rfl⟩ := ih (ts := rest) (by simp at hts; omega) (Input.after hi) (by omega)
      ((Runs.scope hstep).1.trans hp)
    refine ⟨x ++ xs.flatten, rest', ⟨x :: xs, ?_, by simp⟩, by simp, by simp [Nat.add_assoc]⟩
    intro z hz
    rcases List.mem_cons.1 hz with rfl | hz
    · exact hx
    · exact hxs z hz

theorem fails_second {p p' : Nat} {ps : List Nat} {es : List Event}
    (he : env.grammar.rules[e]? = some (.and (p :: p' :: ps) none)) (h : Acts env p pos q es) (h' : Fails env p' q) :
    Fails env e pos := by
  intro s
  obtain ⟨s1, h1, _⟩ := h (ticked s)
  obtain ⟨s2, h2⟩ := h' s1
  exact ⟨_, (runs_and he).2 ⟨1, q, s2, .step h1 (.stuck h2), Or.inl ⟨by simp, rfl, rfl⟩⟩⟩

/-- The first rule of a grammar reads the tokens of documents and makes their trees, and reads nothing else without
adding errors. -/
structure Exact {Doc : Type} (g : Grammar) (Proper : Doc → Prop) (tokens : Doc → List NodeType)
    (tree : Doc → List Event) : Prop where
  acts : ∀ (env : Env), env.grammar = g → env.cache = none → ∀ (v : Doc) (pos : Pos), Proper v →
    Input env pos (tokens v) → Acts env 0 pos ⟨pos.cur + (tokens v).length, pos.stop⟩ (tree v)
  sound : ∀ (env : Env), env.grammar = g → env.cache = none → ∀ N, Sound env 0 (fun x => ∃ v, Proper v ∧ x = tokens v) N
  starts : ∀ v, Proper v → ∀ ty fp, .start ty fp ∈ tree v → fp = none ∧ ty ≠ ERROR
  leaves : ∀ v, Proper v → ∀ ty n, .token ty n ∈ tree v → ty ≠ ERROR

variable {Doc : Type} {g : Grammar} {Proper : Doc → Prop} {tokens : Doc → List NodeType} {tree : Doc → List Event}

/-- Documents are parsed. -/
theorem Exact.parse_document (hx : Exact g Proper tokens tree) (h0 : g.startRule = 0) (hg : env.grammar = g)
    (hc : env.cache = none) {v : Doc} (hv : Proper v) (hi : Input env env.startPos (tokens v)) :
    ∃ n ticks, synParse env n = .ok (tree v, ticks) := by
  obtain ⟨s1, ⟨n, hn⟩, h2⟩ := hx.acts env hg hc v _ hv hi .new
  have hlen := Input.length hi
  refine ⟨n, s1.ticks, ?_⟩
  have hm : parseMain env n .new = .ok () s1 := by
    unfold parseMain
    refine P.bind_ok.2 ⟨some ⟨env.startPos.cur + (tokens v).length, env.startPos.stop⟩, s1, ?_,
      P.bind_ok.2 ⟨_, _, P.lift_ok.2 ⟨rfl, rfl⟩, ?_⟩⟩
    · rw [show env.grammar.startRule = 0 by rw [hg]; exact h0]
      exact hn
    · simp [Pos.isEmpty, P.cond, hlen]
      rfl
  unfold synParse
  rw [hm]
  simp only [h2, emit_events]
  simp [PState.new]

/-- What is parsed without errors is a document. -/
theorem Exact.parse_clean (hx : Exact g Proper tokens tree) (h0 : g.startRule = 0) (hg : env.grammar = g)
    (hc : env.cache = none) {ts : List NodeType}
    (hi : Input env env.startPos ts) {n : Nat} {es : List Event} {ticks : Nat}
    (h : synParse env n = .ok (es, ticks)) (hes : .start ERROR none ∉ es) :
    ∃ v, Proper v ∧ ts = tokens v := by
  unfold synParse at h
  split at h
  case h_2 => cases h
  case h_3 => cases h
  rename_i u s hm
  simp only [Result.ok.injEq, Prod.mk.injEq] at h
  obtain ⟨rfl, rfl⟩ := h
  unfold parseMain at hm
  obtain ⟨r, s1, h1, h⟩ := P.bind_ok.1 hm
  obtain ⟨p, s2, h2, h⟩ := P.bind_ok.1 h
  obtain ⟨rfl, rfl⟩ := P.lift_ok.1 h2
  obtain ⟨_, I, _, a1⟩ := (parseExpr_reads hc _ _ _ _ _ h1).2 _ rfl
  rcases cond_ok h with ⟨_, h⟩ | ⟨hne, rfl⟩
  · exfalso
    obtain ⟨_, s3, h3, h⟩ := P.bind_ok.1 h
    obtain ⟨_, s4, h4, h⟩ := P.bind_ok.1 h
    obtain ⟨_, s5, h5, h⟩ := P.bind_ok.1 h
    obtain ⟨_, S, hS, a5⟩ := bumpAllN_adv (args := PState.new.args) h5
    obtain ⟨_, s6, h6, h⟩ := P.bind_ok.1 h
    have a := (((startError_adv h4).trans a5).trans (event_adv h6)).trans (event_adv h)
    have hp3 : s3.predicate = false := by
      unfold reopen at h3
      rw [if_neg (by rw [(Runs.scope ⟨n, h1⟩).1]; simp [PState.new])] at h3
      split at h3
      · cases h3
        exact (Runs.scope ⟨n, h1⟩).1
      · cases h3
    rw [a.not_pred hp3] at hes
    simp at hes
  · have hend : p.cur = p.stop := by simpa [Pos.isEmpty] using hne
    have hr : Runs env 0 env.startPos .new (some p) s := by
      rw [show env.grammar.startRule = 0 by rw [hg]; exact h0] at h1
      exact ⟨n, h1⟩
    have hcl : errs s = errs .new := by
      unfold errs
      rw [List.count_eq_zero.2 hes]
      rfl
    obtain ⟨_, rest, ⟨v, hv, rfl⟩, rfl, rfl⟩ := hx.sound env hg hc (ts.length + 1) _ _ _ _ _ (by omega) hi rfl hr hcl
    have hlen := Input.length hi
    simp only [List.length_append] at hlen hend
    have : rest = [] := List.length_eq_zero_iff.1 (by omega)
    exact ⟨v, hv, by rw [this, List.append_nil]⟩

end Parser

variable {Doc : Type} {Proper : Doc → Prop} {tokens : Doc → List NodeType} {tree : Doc → List Event}

/-- A finished parse: what it has read is a document if and only if there is no ERROR, and then the events are
those of the document. -/
theorem Parser.Exact.parse_iff {d : Definition} {ty body : Nat} (hx : Parser.Exact d.grammar Proper tokens tree)
    (h0 : d.grammar.startRule = 0) (hlink : Linked d.grammar)
    (hp : Progress d.lexer) (hstart : d.rules[0]? = some (.pub ty body false)) (hb : BoundedBinder d.binder)
    (hs : SpacelessStrings d) (hw : d.isWs ERROR = false) {n : Nat} {text : List Nat} {file : File Nat}
    {data : Definition.IncrementalData} (h : d.parse n text = .ok (file, data)) :
    ∃ (t : NodeType) (kids : Forest) (plain : List Event), IsLexing d.lexer text data.tokens ∧
      newFile text (Forest.node t kids .nil).ops = some file ∧
      Places d.isWs plain data.tokens (Forest.node t kids .nil).ops ∧
      ((∀ m : Nat, file.ty m ≠ some ERROR) →
        ∃ v, Proper v ∧ (data.tokens.filter fun t => !d.isWs t.ty).map (·.ty) = tokens v) ∧
      ∀ v, Proper v → (data.tokens.filter fun t => !d.isWs t.ty).map (·.ty) = tokens v →
        plain = tree v ∧ ∀ m : Nat, file.ty m ≠ some ERROR := by
  obtain ⟨t, kids, plain, ticks, h1, h2, h3, h4, h5, h6⟩ := parse_parts hp hstart hb hs h
  have hst : (Env.new none d.grammar d.isWs text data.tokens).grammar.rules[(Env.new none d.grammar d.isWs text
      data.tokens).grammar.startRule]? = some (.pub ty body false) := by
    rw [show (Env.new none d.grammar d.isWs text data.tokens).grammar.startRule = 0 from h0]
    exact hstart
  obtain ⟨t', I, k, he, _, J, hJ, hI⟩ := Parser.synParse_reads (b := false) (ty := ty) (body := body) rfl hst h2
  have hA := Parser.passed_new (Env.new none d.grammar d.isWs text data.tokens).grammar
  have hlink : Linked (Env.new none d.grammar d.isWs text data.tokens).grammar := hlink
  have hIw : (Items.node t' I .nil).WF := by
    refine ⟨?_, trivial⟩
    rcases hI with ⟨_, rfl⟩ | ⟨S, _, hS, rfl⟩
    · exact hJ.wf hlink.linksOk hA
    · exact Items.WF.append (hJ.wf hlink.linksOk hA) ⟨hS.wf hlink.linksOk hA, trivial⟩
  have hplain : plain = (Items.node t' I .nil).resolve := by
    rw [he, reshuffle_encode _ hIw, Result.ok.injEq] at h3
    exact h3.symm
  have hin : Input (Env.new none d.grammar d.isWs text data.tokens) _
      ((data.tokens.filter fun t => !d.isWs t.ty).map (·.ty)) := input_start
  refine ⟨t, kids, plain, h1, h5, h4, ?_, ?_⟩
  · intro hno
    refine hx.parse_clean h0 rfl rfl hin h2 ?_
    intro hmem
    have : Event.start ERROR none ∈ plain := by
      rw [hplain]
      exact Items.resolve_starts (Or.inl ⟨none, by rw [← he]; exact hmem⟩)
    obtain ⟨m, hm⟩ := (types_of_events h4 h6 ERROR).1 this
    exact hno m hm
  · intro v hv hts
    rw [hts] at hin
    obtain ⟨n', ticks', hn'⟩ := hx.parse_document h0 rfl rfl hv hin
    have hev : data.events = tree v := by
      rcases Nat.le_total n n' with hle | hle
      · rcases synParse_le _ hle with h' | h'
        · rw [h2] at h'; cases h'
        · rw [h2, hn', Result.ok.injEq, Prod.mk.injEq] at h'; exact h'.1.symm
      · rcases synParse_le _ hle with h' | h'
        · rw [hn'] at h'; cases h'
        · rw [h2, hn', Result.ok.injEq, Prod.mk.injEq] at h'; exact h'.1
    have hpl : plain = tree v := by
      rw [hplain, Items.resolve_plain, ← he, hev]
      intro ty fp hmem
      rw [← he, hev] at hmem
      exact (hx.starts v hv ty fp hmem).1
    refine ⟨hpl, ?_⟩
    intro m hm
    rcases (types_of_events h4 h6 ERROR).2 ⟨m, hm⟩ with ⟨fp, h⟩ | h | ⟨k, h⟩
    · rw [hpl] at h
      exact (hx.starts v hv _ _ h).2 rfl
    · rw [hw] at h; cases h
    · rw [hpl] at h
      exact hx.leaves v hv _ _ h rfl

end Fall
