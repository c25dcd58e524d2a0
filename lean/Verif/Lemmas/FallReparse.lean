import Verif.Spec.FallReparse
import Verif.Lemmas.ReparseCert
import Verif.Lemmas.ConvertSpaces
import Verif.Props.Total

/-! Parts of the proof that reparsing a file of the Fall language is parsing it. -/

namespace Fall.FallReparse

open Spec Parser Relocate Salvage ReparseCert

variable {cache : Option (CacheMap × List Event)} {g : Grammar} {isWs : NodeType → Bool} {text : List Nat}
  {tokens : List Token} {lexer : Lexer Nat}

/-- The significant token where some of the tokens end. -/
theorem sigToken_at {A R : List Token} {x : Token} (hx : isWs x.ty = false) :
    sigToken (Env.new cache g isWs text (A ++ x :: R)) (sigCount isWs A) = some x := by
  unfold sigToken
  show ((nonWsIndexes isWs 0 0 (A ++ x :: R))[sigCount isWs A]?).bind _ = _
  rw [nonWs_at hx]
  show (A ++ x :: R)[A.length]? = some x
  simp

theorem sum_le_sigOffset (A R : List Token) :
    (A.map (·.len)).sum ≤ sigOffset isWs (A ++ R) (sigCount isWs A) := by
  induction A with
  | nil => simp
  | cons t A ih =>
    rw [sigCount_cons, List.cons_append, List.map_cons, List.sum_cons]
    by_cases ht : isWs t.ty = true
    · rw [if_pos ht, Nat.zero_add, sigOffset.eq_def]
      simp only [ht, if_true]
      exact Nat.add_le_add_left ih _
    · rw [if_neg ht, Nat.add_comm 1, sigOffset.eq_def]
      simp only [ht]
      exact Nat.add_le_add_left ih _

theorem lexing_pos {ts : List Token} {text : List Nat} (h : IsLexing lexer text ts) : ∀ t ∈ ts, 0 < t.len := by
  induction ts generalizing text with
  | nil => simp
  | cons t ts ih =>
    intro u hu
    rcases List.mem_cons.1 hu with rfl | hu
    · exact h.2.1
    · exact ih h.2.2.2 u hu

/-- Words are not spelled by errors. -/
theorem word_tokens (hb : ∀ c text, 97 ≤ c → c ≤ 122 → (lexer (c :: text)).ty ≠ ERROR)
    (hw : ∀ c text, 97 ≤ c → c ≤ 122 → isWs (lexer (c :: text)).ty = false) {n : Nat} {A suf : List Token}
    (hpos : ∀ t ∈ A ++ suf, 0 < t.len)
    {w rest : List Nat} (hl : IsLexing lexer rest suf) (hw0 : w <+: rest) (hw1 : ∀ c ∈ w, 97 ≤ c ∧ c ≤ 122)
    (h : sigLen (Env.new cache g isWs text (A ++ suf)) (sigCount isWs A) n = some w.length) :
    ∀ m, sigCount isWs A ≤ m → m < sigCount isWs A + n →
      sigTy (Env.new cache g isWs text (A ++ suf)) m ≠ some ERROR := by
  induction n generalizing A suf w rest with
  | zero => intro m h1 h2; omega
  | succ n ih =>
    simp only [sigLen, Option.bind_eq_bind, Option.bind_eq_some_iff, Option.some.injEq] at h
    obtain ⟨t, ht, k, hk, hsum⟩ := h
    cases suf with
    | nil =>
      exfalso
      rw [List.append_nil] at ht
      unfold sigToken at ht
      have : (Env.new cache g isWs text A).nonWs[sigCount isWs A]? = none := by
        rw [List.getElem?_eq_none_iff]
        show (nonWsIndexes isWs 0 0 A).length ≤ _
        rw [nonWs_length]
        exact Nat.le_refl _
      rw [this] at ht
      cases ht
    | cons u suf =>
      obtain ⟨h1, h2, h3, h4⟩ := hl
      by_cases hw2 : w = []
      · exfalso
        subst hw2
        obtain ⟨st, k', hi, hk'⟩ := sigToken_some ht
        have := hpos t (List.mem_of_getElem? hk')
        simp only [List.length_nil] at hsum
        omega
      · obtain ⟨c, w', rfl⟩ := List.exists_cons_of_ne_nil hw2
        obtain ⟨r, rfl⟩ := hw0
        have hc := hw1 c (by simp)
        have hu : isWs u.ty = false := by rw [← h1]; exact hw c _ hc.1 hc.2
        rw [sigToken_at hu] at ht
        cases ht
        have hA : sigCount isWs (A ++ [t]) = sigCount isWs A + 1 := by
          rw [sigCount_append, sigCount_cons, if_neg (by simp [hu])]
          simp [sigCount]
        have ih' := ih (A := A ++ [t]) (suf := suf) (by rwa [List.append_assoc]) (w := (c :: w').drop t.len) (rest := ((c :: w') ++ r).drop t.len)
          h4 ⟨r, by rw [List.drop_append_of_le_length (by omega)]⟩ (fun c' hc' => hw1 c' (List.mem_of_mem_drop hc'))
          (by rw [List.append_assoc, List.singleton_append, hA, hk, List.length_drop]; congr 1; omega)
        intro m hm1 hm2
        by_cases hm : m = sigCount isWs A
        · subst hm
          rw [sigTy, sigToken_at hu]
          have := hb c (w' ++ r) hc.1 hc.2
          rw [show lexer (c :: (w' ++ r)) = t from h1] at this
          simpa using this
        · have := ih' m (by omega) (by omega)
          rwa [List.append_assoc] at this

/-- The token records of a parse fit the tokens. -/
theorem parse_fits (hw : BlankStart fallIsWs lexer) (hl : IsLexing lexer text tokens) {n : Nat} {es : List Event}
    {ticks : Nat} (h : synParse (Env.new none fallGrammar fallIsWs text tokens) n = .ok (es, ticks)) :
    Fits fallIsWs (counts es) tokens := by
  have hs : SpacelessStrings (fallDefinition lexer) :=
    spaceless_of_visible (show visible fallGrammar.rules = true by decide +kernel) hw
  have hplain := plainStrings_of_lexer hs (show IsLexing (fallDefinition lexer).lexer text tokens from hl) none
  obtain ⟨t, I, k, rfl, _, J, hJ, hI⟩ := Parser.synParse_reads (ty := 32) (body := 37) (b := false) rfl
    (by show fallGrammar.rules[0]? = _; decide +kernel) h
  have hcov : CoversTokens (Env.new none fallGrammar fallIsWs text tokens) 0
      (Env.new none fallGrammar fallIsWs text tokens).nonWs.length (tokenEvents I.encode) := by
    rcases hI with ⟨rfl, rfl⟩ | ⟨S, _, hS, rfl⟩
    · exact hJ.covers
    · have := hJ.covers.append hS.covers
      simpa [Items.encode_append, Items.encode, tokenEvents] using this
  have hfits := covers_fits (lexing_pos hl) hplain hcov (Nat.le_refl _) left_new
  rw [counts_tokenEvents] at hfits
  have hc : counts (Items.node t I .nil).encode = counts I.encode := by simp [Items.encode, counts]
  rw [hc]
  exact hfits

/-- All marks of a parse are for rules, and the events after them are those of running the rule. -/
theorem fall_marked {n : Nat} {es : List Event} {ticks : Nat}
    (h : synParse (Env.new none fallGrammar isWs text tokens) n = .ok (es, ticks)) :
    Marked (Env.new none fallGrammar isWs text tokens) 76 PState.new.args 0 es := by
  have rule : ∀ {k : Nat} {e : Expr}, fallGrammar.rules[k]? = some e →
      (Env.new none fallGrammar isWs text tokens).grammar.rules[k]? = some e := fun h => h
  have type : ∀ {k : Nat} {t : NodeType}, fallGrammar.nodeTypes[k]? = some t →
      (Env.new none fallGrammar isWs text tokens).grammar.nodeTypes[k]? = some t := fun h => h
  have hA : CleanArgs (In fallClean) PState.new.args := by
    intro k a hk
    cases List.eq_of_mem_replicate (List.mem_of_getElem? hk)
  have clean : ∀ e, In fallClean e → MRun (Env.new none fallGrammar isWs text tokens) 76 PState.new.args e :=
    fun e he => mrun_clean rfl fall_clean hA he
  have h77 : MRun (Env.new none fallGrammar isWs text tokens) 76 PState.new.args 77 := by
    refine mrun_cached rfl (rule (by decide +kernel)) fun pos s q s' hp ha hr es hes => ?_
    obtain ⟨_, I, hI, hadv⟩ := runs_reads rfl hr
    have hcl := (derives_clean (C := In fallClean) (bad := fun _ => False) fall_clean (by simp) (by simp) hI (ha ▸ hA)
      (show In fallClean 76 by decide +kernel)).1
    have := hadv.not_pred hp
    rw [hes] at this
    rw [List.append_cancel_left this]
    exact fun _ _ => hcl.encode
  have h2 : MRun (Env.new none fallGrammar isWs text tokens) 76 PState.new.args 2 := by
    refine mrun_or (rule (k := 2) (e := .or [52, 53, 54, 55, 56]) (by decide +kernel)) fun p hp => ?_
    have h53 : MRun (Env.new none fallGrammar isWs text tokens) 76 PState.new.args 53 :=
      mrun_and (rule (k := 53) (e := .and [3] none) (by decide +kernel)) (by
        simp only [List.mem_singleton, forall_eq]
        exact mrun_pub (rule (k := 3) (e := .pub 33 77 false) (by decide +kernel)) (type (k := 33) (t := 132) (by decide +kernel)) h77)
    simp only [List.mem_cons, List.not_mem_nil, or_false] at hp
    rcases hp with rfl | rfl | rfl | rfl | rfl
    · exact mrun_and (rule (k := 52) (e := .and [13] none) (by decide +kernel)) (by
        simpa using clean 13 (by decide +kernel))
    · exact h53
    · exact mrun_and (rule (k := 54) (e := .and [26] none) (by decide +kernel)) (by
        simpa using clean 26 (by decide +kernel))
    · exact mrun_and (rule (k := 55) (e := .and [27] none) (by decide +kernel)) (by
        simpa using clean 27 (by decide +kernel))
    · exact mrun_and (rule (k := 56) (e := .and [15] none) (by decide +kernel)) (by
        simpa using clean 15 (by decide +kernel))
  have h34 := mrun_withSkip rfl (rule (k := 34) (e := .withSkip 1 2) (by decide +kernel)) h2
  have h35 := mrun_rep (rule (k := 35) (e := .rep 34) (by decide +kernel)) h34
  have h36 := mrun_and (rule (k := 36) (e := .and [35] none) (by decide +kernel)) (by simpa using h35)
  have h37 := mrun_or (rule (k := 37) (e := .or [36]) (by decide +kernel)) (by simpa using h36)
  exact synParse_marked (ty := 32) (body := 37) (t := 131) (by show fallGrammar.rules[0]? = _; decide +kernel)
    (type (k := 32) (by decide +kernel)) h37 h

theorem eager_and {env : Env} {a e : Nat} (ha : env.grammar.rules[a]? = some (.and [e] none)) {q : Pos} {s s' : PState}
    {r : Option Pos} (he : ∀ s r s', Runs env e q s r s' → r = none) (h : Runs env a q s r s') : r = none := by
  obtain ⟨k, q', s1, h1, h2⟩ := (runs_and ha).1 h
  rcases h2 with ⟨_, h2, _⟩ | ⟨hk, _, _⟩
  · exact h2
  · cases h1 with
    | stuck h3 => simp at hk
    | step h3 _ => cases he _ _ _ h3

theorem eager_word {env : Env} {e ty : Nat} {w : List Nat} (hr : env.grammar.rules[e]? = some (.contextualToken ty w)) {q : Pos}
    (hq : q.isEmpty = true) {s s' : PState} {r : Option Pos} (h : Runs env e q s r s') : r = none := by
  obtain ⟨n, s1, h1, _⟩ := runs_iff.1 h
  rw [inner_of hr] at h1
  simp only [bumpByText, hq, if_true] at h1
  cases h1
  rfl

theorem eager_token {env : Env} {e ty : Nat} (hr : env.grammar.rules[e]? = some (.token ty)) {q : Pos}
    (hq : q.isEmpty = true) {s s' : PState} {r : Option Pos} (h : Runs env e q s r s') : r = none := by
  have hq : q.cur = q.stop := by simpa [Pos.isEmpty] using hq
  rcases (runs_token hr).1 h with ⟨_, h, _⟩ | ⟨_, _, h, _⟩
  · exact h
  · exact absurd hq h

/-- No item begins at the end of the file. -/
theorem fall_eager {env : Env} (hg : env.grammar = fallGrammar) : Eager env 1 := by
  have rule : ∀ {k : Nat} {e : Expr}, fallGrammar.rules[k]? = some e → env.grammar.rules[k]? = some e := by
    intro k e hk
    rw [hg]
    exact hk
  intro n q s r s' hq h
  obtain ⟨s1, h1, hz⟩ := (runs_or (rule (k := 1) (e := .or [39, 41, 43, 45, 47, 49, 51]) (by decide +kernel))).1 ⟨n, h⟩
  have key : ∀ p ∈ [39, 41, 43, 45, 47, 49, 51], ∀ s r s', Runs env p q s r s' → r = none := by
    intro p hp s r s' h
    simp only [List.mem_cons, List.not_mem_nil, or_false] at hp
    rcases hp with rfl | rfl | rfl | rfl | rfl | rfl | rfl
    · exact eager_and (rule (k := 39) (e := .and [38] none) (by decide +kernel)) (fun _ _ _ =>
        eager_word (rule (k := 38) (e := .contextualToken 6 [116, 111, 107, 101, 110, 105, 122, 101, 114]) (by decide +kernel)) hq) h
    · exact eager_and (rule (k := 41) (e := .and [40] none) (by decide +kernel)) (fun _ _ _ =>
        eager_word (rule (k := 40) (e := .contextualToken 10 [112, 117, 98]) (by decide +kernel)) hq) h
    · exact eager_and (rule (k := 43) (e := .and [42] none) (by decide +kernel)) (fun _ _ _ =>
        eager_word (rule (k := 42) (e := .contextualToken 7 [114, 117, 108, 101]) (by decide +kernel)) hq) h
    · exact eager_and (rule (k := 45) (e := .and [44] none) (by decide +kernel)) (fun _ _ _ =>
        eager_token (rule (k := 44) (e := .token 19) (by decide +kernel)) hq) h
    · exact eager_and (rule (k := 47) (e := .and [46] none) (by decide +kernel)) (fun _ _ _ =>
        eager_word (rule (k := 46) (e := .contextualToken 8 [118, 101, 114, 98, 97, 116, 105, 109]) (by decide +kernel)) hq) h
    · exact eager_and (rule (k := 49) (e := .and [48] none) (by decide +kernel)) (fun _ _ _ =>
        eager_word (rule (k := 48) (e := .contextualToken 9 [97, 115, 116]) (by decide +kernel)) hq) h
    · exact eager_and (rule (k := 51) (e := .and [50] none) (by decide +kernel)) (fun _ _ _ =>
        eager_word (rule (k := 50) (e := .contextualToken 11 [116, 101, 115, 116]) (by decide +kernel)) hq) h
  generalize hps : [39, 41, 43, 45, 47, 49, 51] = ps at h1 key
  generalize ticked s = t at h1
  clear hps h hz
  induction h1 with
  | none => rfl
  | found h => exact key _ (by simp) _ _ _ h
  | next _ _ ih => exact ih hq fun p hp => key p (by simp [hp])

theorem fits_sum {ns : List Nat} {ts : List Token} (h : Fits isWs ns ts) : ns.sum ≤ sigCount isWs ts := by
  induction ns generalizing ts with
  | nil => simp
  | cons n ns ih =>
    obtain ⟨ws, raw, rest, rfl, _, h2, h3, h4⟩ := h
    have := ih h4
    rw [sigCount_append, sigCount_append, sigCount_sig h3, h2]
    simp
    omega

theorem mem_of_lookup {α β : Type} [BEq α] [LawfulBEq α] {l : List (α × β)} {a : α} {b : β}
    (h : l.lookup a = some b) : (a, b) ∈ l := by
  induction l with
  | nil => cases h
  | cons x l ih =>
    obtain ⟨c, d⟩ := x
    simp only [List.lookup] at h
    split at h
    · rename_i hc
      cases h
      rw [eq_of_beq hc]
      simp
    · exact List.mem_cons_of_mem _ (ih h)

/-- What is salvaged from an old parse is what parsing the new text gives. -/
theorem fall_sound (hw : BlankStart fallIsWs lexer) (ht : FallTokens lexer) {oldText newText : List Nat}
    {oldTokens newTokens : List Token} (hl : IsLexing lexer oldText oldTokens) (hl' : IsLexing lexer newText newTokens)
    {n : Nat} {oldEvents : List Event} {ticks : Nat}
    (hold : synParse (Env.new none fallGrammar fallIsWs oldText oldTokens) n = .ok (oldEvents, ticks))
    {edit : TextEdit Nat} (ho : OrderedCopies 0 edit.ops) (ha : edit.apply (Text.ofBuf oldText) = some newText)
    {cache : CacheMap} (hc : salvageSegments oldEvents oldTokens fallIsWs edit = some cache) :
    SoundCache (Env.new (some (cache, oldEvents)) fallGrammar fallIsWs newText newTokens) := by
  rintro cache' evs hce e body hr cur off k a nE nT hcur hlk s r s' hp hrun
  simp only [Env.new, Option.some.injEq, Prod.mk.injEq] at hce
  obtain ⟨rfl, rfl⟩ := hce
  obtain ⟨rfl, rfl⟩ := fall_cached e body hr
  -- the fragment
  obtain ⟨pre, frag, post, h1, h2, h3, h4, h5, h6⟩ := C43_salvage_partial fallIsWs oldEvents oldTokens oldText newText
    edit cache (parse_fits hw hl hold) ho ha hc off 76 a nE nT (mem_of_lookup hlk)
  obtain ⟨-, frag', post', h7, h8, s1, s1', g1, g2, g3, g4⟩ := fall_marked hold pre 76 nE _ h1
  obtain ⟨rfl, -⟩ := List.append_inj h7 (h3.trans h8.symm)
  rw [counts_sum] at h4
  rw [Nat.zero_add] at g3
  rw [counts_sum] at h6
  have hF : ∀ fp, .start ERROR fp ∉ frag := fun fp h => h5 _ fp h rfl
  have hlen : (oldTokens.map (·.len)).sum ≤ oldText.length := Nat.le_of_eq hl.sum
  have hlen' : (newTokens.map (·.len)).sum ≤ newText.length := Nat.le_of_eq hl'.sum
  generalize hw1 : tokenCount pre = w1 at g3 h6
  rw [h4] at g3
  have hnon : (Env.new none fallGrammar fallIsWs oldText oldTokens).nonWs.length = sigCount fallIsWs oldTokens := nonWs_length
  have hin : w1 + nT ≤ sigCount fallIsWs oldTokens := by
    have := fits_sum (parse_fits hw hl hold)
    rw [counts_sum, h1, Items.tokenCount_append,
      show tokenCount (.cached 76 nE :: (frag ++ post)) = tokenCount (frag ++ post) from rfl,
      Items.tokenCount_append] at this
    omega
  obtain ⟨p, us, b1, b2, b3⟩ := rule_body rfl rfl (envOk_new hlen) (by simpa [hnon] using hin) g1 g3 g4 hF
  have b4 := Parser.Input.length b2
  simp only [List.length_cons] at b4 b1
  have hlast : sigTy (Env.new none fallGrammar fallIsWs oldText oldTokens) (w1 + nT - 1) = some 120 := by
    have b5 := input_get b2 (i := us.length) (by simp)
    obtain ⟨b6, _⟩ := closing_next 0 (show closing 119 120 0 us < us.length by omega)
    simp only at b5
    rw [show p + us.length = w1 + nT - 1 by omega] at b5
    rw [← b5, ← b6, show us.length = closing 119 120 0 us + 1 by omega, List.getElem?_cons_succ]
  -- its tokens
  obtain ⟨A, M, R, x, y, rfl, c2, c3, c4, c5, c6, c7⟩ := split_piece (isWs := fallIsWs) (ts := oldTokens) (c := w1)
    (K := nT) (by omega) hin
  have hy : y.ty = 120 := by
    obtain ⟨B, rfl⟩ : ∃ B, M = B ++ [y] := by
      rw [List.getLast?_eq_some_iff] at c6
      exact c6
    have e1 : sigCount fallIsWs (A ++ B) = w1 + nT - 1 := by
      rw [sigCount_append, sigCount_cons, c7] at c3
      simp [sigCount] at c3
      rw [sigCount_append, c2]
      show _ + (B.filter fun t => !fallIsWs t.ty).length = _
      omega
    have e2 := sigToken_at (cache := none) (g := fallGrammar) (text := oldText) (A := A ++ B) (R := R) c7
    rw [e1] at e2
    have e3 : A ++ B ++ y :: R = A ++ (B ++ [y] ++ R) := by simp
    rw [e3] at e2
    rw [sigTy, e2] at hlast
    simpa using hlast
  obtain ⟨hI0, I, hI, hadv⟩ := runs_reads (env := Env.new none fallGrammar fallIsWs oldText (A ++ (M ++ R))) rfl g3
  have hIe : I.encode = frag := by
    have := hadv.not_pred g1
    rw [g4] at this
    exact (List.append_cancel_left this).symm
  have hA : CleanArgs (In fallClean) s1.args := by
    rw [g2]
    intro k a hk
    cases List.eq_of_mem_replicate (List.mem_of_getElem? hk)
  have herr := (derives_clean (C := In fallClean)
    (bad := fun i => sigTy (Env.new none fallGrammar fallIsWs oldText (A ++ (M ++ R))) i = some ERROR)
    fall_clean (fun _ h => h) (by
      intro e _ ty w hr i m hsp
      obtain ⟨hne, hlet⟩ := fall_words e ty w hr
      obtain ⟨⟨st, k, q1, q2⟩, q3⟩ := hsp
      have hi : i < sigCount fallIsWs (A ++ (M ++ R)) := by
        rw [← nonWs_length (len := 0) (i := 0)]
        exact (List.getElem?_eq_some_iff.1 q1).1
      obtain ⟨A2, x2, R2, q4, q5, q6⟩ := split_sig hi
      have q7 := nonWs_at (A := A2) (R := R2) q6
      rw [← q4, q5] at q7
      have q8 : st = (A2.map (·.len)).sum := by
        have := q1.symm.trans q7
        simp only [Option.some.injEq, Prod.mk.injEq] at this
        exact this.1
      subst q8
      rw [q4] at hl q3 ⊢
      rw [← q5] at q3 ⊢
      exact word_tokens ht.word (fun c text h1 h2 => hw c text (by omega) (by omega) (by omega)) (lexing_pos hl)
        (lexing_drop hl) q2 hlet q3) hI hA (show In fallClean 76 by decide +kernel)).2 (by
    intro h
    obtain ⟨fp, h⟩ := Items.mem_tys h
    exact hF fp (hIe ▸ h))
  have hM : ∀ t ∈ M, t.ty ≠ ERROR := by
    intro t hmem h0
    obtain ⟨B, S, rfl⟩ := List.append_of_mem hmem
    have hws : fallIsWs t.ty = false := by rw [h0]; rfl
    have e2 := sigToken_at (cache := none) (g := fallGrammar) (text := oldText) (A := A ++ B) (R := S ++ R) hws
    have e3 : A ++ B ++ t :: (S ++ R) = A ++ (B ++ t :: S ++ R) := by simp
    rw [e3] at e2
    rw [sigCount_append, sigCount_cons, if_neg (by simp [hws])] at c3
    refine herr (sigCount fallIsWs (A ++ B)) ?_ ?_ (by rw [sigTy, e2, ← h0]; rfl)
    · rw [sigCount_append, c2]; simp
    · rw [sigCount_append, c2]; simp only; omega
  -- the place in the new text
  have hcl : cur < sigCount fallIsWs newTokens := by
    rw [← nonWs_length (len := 0) (i := 0)]
    exact (List.getElem?_eq_some_iff.1 hcur).1
  obtain ⟨A', x', R', rfl, d2, d3⟩ := split_sig hcl
  have d4 := nonWs_at (A := A') (R := R') d3
  rw [d2] at d4
  have d5 : off = (A'.map (·.len)).sum := by
    have := (show (nonWsIndexes fallIsWs 0 0 (A' ++ x' :: R'))[cur]? = _ from hcur).symm.trans d4
    simp only [Option.some.injEq, Prod.mk.injEq] at this
    exact this.1
  subst d5
  have hst : sigOffset fallIsWs (A ++ (M ++ R)) w1 = (A.map (·.len)).sum := by
    rw [← c2]
    refine sigOffset_append fun t h => ?_
    rw [List.head?_append, c4] at h
    cases h
    exact c5
  have hen : (A.map (·.len)).sum + (M.map (·.len)).sum ≤ sigOffset fallIsWs (A ++ (M ++ R)) (w1 + nT) := by
    have := sum_le_sigOffset (isWs := fallIsWs) (A ++ M) R
    rw [sigCount_append, c2, c3, List.append_assoc] at this
    simpa using this
  have hMpos : 0 < (M.map (·.len)).sum := by
    obtain ⟨B, rfl⟩ : ∃ B, M = B ++ [y] := by
      rw [List.getLast?_eq_some_iff] at c6
      exact c6
    have := lexing_pos hl y (by simp)
    simp
    omega
  obtain ⟨f1, f2⟩ := h6 _ _ rfl rfl (by omega)
  have hag : (oldText.drop (A.map (·.len)).sum).take (M.map (·.len)).sum =
      (newText.drop (A'.map (·.len)).sum).take (M.map (·.len)).sum := by
    unfold bytes at f2
    rw [Nat.add_sub_cancel_left, hst] at f2
    have := congrArg (List.take (M.map (·.len)).sum) f2
    rw [List.take_take, List.take_take, Nat.min_eq_left (by omega)] at this
    exact this.symm
  obtain ⟨R2, f3⟩ := ht.piece _ _ M R _ (lexing_drop hl) hM ⟨y, c6, hy⟩ hag (lexing_drop hl')
  rw [f3] at hrun hlen' hl' ⊢
  -- the two runs
  have hP := piece_of (g := fallGrammar) (isWs := fallIsWs) s1.events s.events hlen hlen' hag
  subst c2 c3 d2
  have hfin := rule_same (A := In fallInside) (need := fallNeed) hP rfl fall_twin ⟨by decide +kernel, rfl⟩ ⟨by decide +kernel, rfl⟩ ⟨by decide +kernel, rfl⟩
    (by
      intro i off k q1 q2
      have hi : i < sigCount fallIsWs (A ++ (M ++ R)) := by
        rw [← nonWs_length (len := 0) (i := 0)]
        exact (List.getElem?_eq_some_iff.1 q1).1
      obtain ⟨A2, x2, R2, q4, q5, q6⟩ := split_sig hi
      have q7 := nonWs_at (A := A2) (R := R2) q6
      rw [← q4, q5] at q7
      have q8 : off = (A2.map (·.len)).sum := by
        have := (show (nonWsIndexes fallIsWs 0 0 (A ++ (M ++ R)))[i]? = _ from q1).symm.trans q7
        simp only [Option.some.injEq, Prod.mk.injEq] at this
        exact this.1
      subst q8
      have e2 := sigToken_at (cache := none) (g := fallGrammar) (text := oldText) (A := A2) (R := R2) q6
      rw [← q4, q5] at e2
      have q2 : sigTy (Env.new none fallGrammar fallIsWs oldText (A ++ (M ++ R))) i = some 118 := q2
      rw [sigTy, e2] at q2
      rw [q4] at hl
      have q9 := lexing_drop hl
      have q10 := ht.hash (oldText.drop (A2.map (·.len)).sum) (by
        intro h0
        have z1 := q9.2.2.1
        have z2 := q9.2.1
        rw [h0, List.length_nil] at z1
        omega) (by rw [q9.1]; simpa using q2)
      rwa [List.head?_drop] at q10)
    (t1 := s1) (t2 := s) ⟨⟨[], by simp, by simp⟩, by rw [g1, hp], by simp, by simp⟩ g1
    (t1' := s1') (by rw [hnon] at g3; exact g3) g4 hF (by
      have e : (Env.new none fallGrammar fallIsWs newText (A' ++ (M ++ R2))).nonWs.length = sigCount fallIsWs (A' ++ (M ++ R2)) := nonWs_length
      rw [← e]
      exact hrun)
  obtain ⟨rfl, ⟨F, r1, r2⟩, _⟩ := hfin
  refine ⟨?_, ?_, ?_⟩
  · have hf0 : frag ≠ [] := by
      rintro rfl
      simp only [tokenCount] at h4
      omega
    have := congrArg List.length h2
    rw [List.length_take, List.length_drop, h3] at this
    have : 0 < frag.length := List.length_pos_iff.2 hf0
    omega
  · simp only [Option.some.injEq, Pos.mk.injEq]
    exact ⟨trivial, nonWs_length.symm⟩
  · rw [r2, h2]
    have : s1.events ++ frag = s1.events ++ F := by rw [← g4]; exact r1
    rw [List.append_cancel_left this]

end Fall.FallReparse
