import Verif.Lemmas.Reshuffle
import Verif.Lemmas.Lex

/-! Whole conversions, and which tokens fit the events of a parse. -/

namespace Fall

open Spec Convert

theorem tokenTexts_some {text : List Nat} {ts : List Token}
    (h : (ts.map (·.len)).sum ≤ text.length) :
    ∃ tt, tokenTexts text ts = some tt ∧ tt.map (·.1) = ts := by
  induction ts generalizing text with
  | nil => exact ⟨[], rfl, rfl⟩
  | cons t ts ih =>
    simp only [List.map_cons, List.sum_cons] at h
    obtain ⟨tt, h1, h2⟩ := ih (text := text.drop t.len) (by rw [List.length_drop]; omega)
    refine ⟨(t, text.take t.len) :: tt, ?_, by simp [h2]⟩
    rw [tokenTexts, if_pos (by omega), h1]
    rfl

theorem tokenTexts_map {text : List Nat} {ts : List Token} {tt : List TokenText}
    (h : tokenTexts text ts = some tt) : tt.map (·.1) = ts := by
  induction ts generalizing text tt with
  | nil => cases h; rfl
  | cons t ts ih =>
    rw [tokenTexts] at h
    split at h
    · simp only [Option.bind_eq_bind, Option.bind_eq_some_iff, Option.some.injEq] at h
      obtain ⟨r, h1, rfl⟩ := h
      simp [ih h1]
    · cases h

theorem takeWhile_all {p : β → Bool} {l : List β} (h : ∀ x ∈ l, p x = true) : l.takeWhile p = l := by
  induction l with
  | nil => rfl
  | cons x l ih =>
    rw [List.takeWhile_cons, if_pos (h x (by simp)), ih fun y hy => h y (List.mem_cons_of_mem _ hy)]

theorem goWith_inv {cv : Convertor}
    {fill : List TokenText → List Event → Option (List BuilderOp × List TokenText × List Event)}
    {ty : NodeType} {ts ts' : List TokenText} {es es' : List Event} {ops : List BuilderOp}
    (h : cv.goWith fill ty ts es = some (ops, ts', es')) :
    ∃ o u, fill ts es = some (o, u, es') ∧
      cv.binder ty (cv.spacesForBinder u) false ≤ u.length ∧
      ops = .start ty :: (o ++ leaves (u.take (cv.binder ty (cv.spacesForBinder u) false)) ++
        [.finish]) ∧ ts' = u.drop (cv.binder ty (cv.spacesForBinder u) false) := by
  simp only [Convertor.goWith, Option.bind_eq_bind, Option.bind_eq_some_iff, Prod.exists] at h
  obtain ⟨o, u, e, h1, h⟩ := h
  split at h
  · cases h
  · simp only [Option.some.injEq, Prod.mk.injEq] at h
    obtain ⟨rfl, rfl, rfl⟩ := h
    exact ⟨o, u, h1, by omega, rfl, rfl⟩

theorem convert_inv {cv : Convertor} {text : List Nat} {tokens : List Token} {events : List Event}
    {ops : List BuilderOp} (h : cv.convert text tokens events = .ok ops) :
    ∃ ty fp rest tt ts' es', reshuffle events = .ok (.start ty fp :: rest) ∧
      tokenTexts text tokens = some tt ∧
      cv.goWith (cv.fill rest.length) ty tt rest = some (ops, ts', es') := by
  unfold Convertor.convert at h
  cases hr : reshuffle events with
  | panic => rw [hr] at h; cases h
  | timeout => rw [hr] at h; cases h
  | ok plain =>
    rw [hr] at h
    simp only [bind, Result.bind] at h
    cases plain with
    | nil => cases h
    | cons e rest =>
      cases e with
      | start ty fp =>
        simp only at h
        cases htt : tokenTexts text tokens with
        | none => rw [htt] at h; cases h
        | some tt =>
          rw [htt] at h
          simp only [Result.ofOption] at h
          cases hg : cv.goWith (cv.fill rest.length) ty tt rest with
          | none => rw [hg] at h; cases h
          | some r =>
            rw [hg] at h
            obtain ⟨o, ts', es'⟩ := r
            cases h
            exact ⟨ty, fp, rest, tt, ts', es', rfl, rfl, hg⟩
      | _ => cases h

/-- Everything about a whole conversion. -/
theorem convert_ok (cv : Convertor) (hb : BoundedBinder cv.binder) {text : List Nat}
    {tokens : List Token} {events c : List Event} {ty : NodeType} {fp : Option Nat}
    (hroot : ∀ spaces, cv.binder ty spaces false = spaces.length)
    (hlen : (tokens.map (·.len)).sum ≤ text.length)
    (hr : reshuffle events = .ok (.start ty fp :: (c ++ [.fin]))) (hc : Closes 1 (c ++ [.fin]))
    (hf : Fits cv.isWs (counts c) tokens) :
    ∃ kids : Forest, cv.convert text tokens events = .ok (Forest.node ty kids .nil).ops ∧
      Places cv.isWs (.start ty fp :: (c ++ [.fin])) tokens (Forest.node ty kids .nil).ops := by
  obtain ⟨tt, h1, h2⟩ := tokenTexts_some hlen
  obtain ⟨f, ts1, ts2, h3, h4, h5, h6⟩ := fill_ok cv hb (c ++ [Event.fin]).length c tt [] [] hc
    (by simp) (by simpa [h2] using hf)
  have hws : cv.spaces ts2 = ts2 := by
    unfold Convertor.spaces
    exact takeWhile_all fun t ht => h6 t.1 (List.mem_map.2 ⟨t, ht, rfl⟩)
  have hw : cv.binder ty (cv.spacesForBinder ts2) false = ts2.length := by
    rw [hroot]; simp [Convertor.spacesForBinder, hws]
  obtain ⟨g, hg⟩ := Forest.append_leaves f ts2
  refine ⟨g, ?_, ?_⟩
  · simp only [Convertor.convert, hr, bind, Result.bind, h1, Result.ofOption, Convertor.goWith, h3,
      Option.bind_some, hw]
    rw [if_neg (by omega)]
    simp only [List.take_length, hg]
    simp [pure, Forest.ops]
  · have hs := places_spaces (isWs := cv.isWs) ts2 (fun t ht => h6 t.1 (List.mem_map.2 ⟨t, ht, rfl⟩))
    have := Places.start (isWs := cv.isWs) (ty := ty) (fp := fp)
      (h5.append (hs.append (Places.fin (isWs := cv.isWs) .nil)))
    rw [← h2, h4]
    simp only [Forest.ops, ← hg]
    simpa using this

theorem Spec.Places.leafLen {isWs : NodeType → Bool} {es : List Event} {ts : List Token}
    {ops : List BuilderOp} (h : Places isWs es ts ops) :
    Spec.leafLen ops = (ts.map (·.len)).sum := by
  induction h with
  | nil => rfl
  | space _ _ ih => simp [Spec.leafLen, ih]
  | start _ ih => simpa [Spec.leafLen] using ih
  | fin _ ih => simpa [Spec.leafLen] using ih
  | token _ _ _ ih => simp [Spec.leafLen, ih]
  | cached _ ih => exact ih

/-! ## Significant tokens -/

theorem nonWsIndexes_nil {isWs : NodeType → Bool} {len i : Nat} {ts : List Token}
    (h : nonWsIndexes isWs len i ts = []) : ∀ t ∈ ts, isWs t.ty = true := by
  induction ts generalizing len i with
  | nil => simp
  | cons t ts ih =>
    rw [nonWsIndexes] at h
    split at h
    · rename_i ht
      simp only [List.mem_cons]
      rintro x (rfl | hx)
      · exact ht
      · exact ih h x hx
    · cases h

theorem nonWsIndexes_cons {isWs : NodeType → Bool} {len i st k : Nat} {ts : List Token}
    {r : List (Nat × Nat)} (h : nonWsIndexes isWs len i ts = (st, k) :: r) :
    ∃ ws x rest, ts = ws ++ x :: rest ∧ (∀ t ∈ ws, isWs t.ty = true) ∧ isWs x.ty = false ∧
      st = len + (ws.map (·.len)).sum ∧ k = i + ws.length ∧
      r = nonWsIndexes isWs (st + x.len) (k + 1) rest := by
  induction ts generalizing len i with
  | nil => cases h
  | cons t ts ih =>
    rw [nonWsIndexes] at h
    split at h
    · rename_i ht
      obtain ⟨ws, x, rest, rfl, h1, h2, rfl, rfl, h3⟩ := ih h
      refine ⟨t :: ws, x, rest, rfl, ?_, h2, by simp; omega, by simp; omega, h3⟩
      simp only [List.mem_cons]
      rintro y (rfl | hy)
      · exact ht
      · exact h1 y hy
    · rename_i ht
      simp only [List.cons.injEq, Prod.mk.injEq] at h
      obtain ⟨⟨rfl, rfl⟩, rfl⟩ := h
      exact ⟨[], t, ts, rfl, by simp, by simpa using ht, by simp, by simp, rfl⟩

/-- The tokens `suf` are left, and the significant ones among them are those from number `c` on. -/
structure Left (env : Env) (isWs : NodeType → Bool) (c : Nat) (pre suf : List Token) : Prop where
  tokens : env.tokens = pre ++ suf
  nonWs : env.nonWs.drop c = nonWsIndexes isWs (pre.map (·.len)).sum pre.length suf

theorem Left.next {env : Env} {isWs : NodeType → Bool} {c st k : Nat} {pre suf : List Token}
    (h : Left env isWs c pre suf) (hi : env.nonWs[c]? = some (st, k)) :
    ∃ ws x rest, suf = ws ++ x :: rest ∧ (∀ t ∈ ws, isWs t.ty = true) ∧ isWs x.ty = false ∧
      st = ((pre ++ ws).map (·.len)).sum ∧ env.tokens[k]? = some x ∧
      Left env isWs (c + 1) (pre ++ ws ++ [x]) rest := by
  have hd : env.nonWs.drop c = (st, k) :: env.nonWs.drop (c + 1) := by
    obtain ⟨hlt, he⟩ := List.getElem?_eq_some_iff.1 hi
    rw [List.drop_eq_getElem_cons hlt, he]
  rw [h.nonWs] at hd
  obtain ⟨ws, x, rest, rfl, h1, h2, rfl, rfl, h3⟩ := nonWsIndexes_cons hd
  refine ⟨ws, x, rest, rfl, h1, h2, by simp, ?_, ?_, ?_⟩
  · rw [h.tokens, List.getElem?_append_right (by omega), Nat.add_sub_cancel_left,
      List.getElem?_append_right (by omega)]
    simp
  · rw [h.tokens]; simp
  · rw [h3]
    simp [Nat.add_assoc]

theorem sigToken_some {env : Env} {i : Nat} {t : Token} (h : sigToken env i = some t) :
    ∃ st k, env.nonWs[i]? = some (st, k) ∧ env.tokens[k]? = some t := by
  simp only [sigToken, Option.bind_eq_bind, Option.bind_eq_some_iff, Prod.exists] at h
  exact h

/-- The tokens that spell a string are adjacent if no whitespace begins inside of the string. -/
theorem Left.adjacent {env : Env} {isWs : NodeType → Bool} (hpos : ∀ t ∈ env.tokens, 0 < t.len)
    {start stop : Nat}
    (hplain : ∀ (m : Nat) (t : Token), env.tokens[m]? = some t → isWs t.ty = true →
      ((env.tokens.take m).map (·.len)).sum ≤ start ∨ stop ≤ ((env.tokens.take m).map (·.len)).sum)
    {n c m : Nat} {pre suf : List Token} (h : Left env isWs c pre suf)
    (hstart : start < (pre.map (·.len)).sum) (hm : (pre.map (·.len)).sum + m = stop)
    (hs : sigLen env c n = some m) :
    ∃ raw rest, suf = raw ++ rest ∧ raw.length = n ∧ (∀ t ∈ raw, isWs t.ty = false) ∧
      Left env isWs (c + n) (pre ++ raw) rest := by
  induction n generalizing c m pre suf with
  | zero => exact ⟨[], suf, rfl, rfl, by simp, by simpa using h⟩
  | succ n ih =>
    simp only [sigLen, Option.bind_eq_bind, Option.bind_eq_some_iff, Option.some.injEq] at hs
    obtain ⟨t, ht, m', hm', rfl⟩ := hs
    obtain ⟨st, k, hi, hk⟩ := sigToken_some ht
    obtain ⟨ws, x, rest, rfl, h1, h2, h3, h4, h5⟩ := h.next hi
    rw [hk] at h4
    cases h4
    have htpos : 0 < t.len := hpos t (List.mem_of_getElem? hk)
    cases ws with
    | cons w ws =>
      exfalso
      have hw : env.tokens[pre.length]? = some w := by
        rw [h.tokens, List.getElem?_append_right (by omega)]; simp
      have := hplain _ _ hw (h1 w (by simp))
      rw [h.tokens, List.take_left] at this
      omega
    | nil =>
      simp only [List.append_nil, List.nil_append] at h3 h5 ⊢
      obtain ⟨raw, rest', rfl, g1, g2, g3⟩ := ih h5 (by simp; omega) (by simp; omega) hm'
      refine ⟨t :: raw, rest', rfl, by simp [g1], ?_, ?_⟩
      · simp only [List.mem_cons]
        rintro y (rfl | hy)
        · exact h2
        · exact g2 y hy
      · rw [show c + (n + 1) = c + 1 + n by omega]
        simpa using g3

/-- The token records of a parse fit the tokens. -/
theorem covers_fits {env : Env} {isWs : NodeType → Bool} (hpos : ∀ t ∈ env.tokens, 0 < t.len)
    (hp : PlainStrings env isWs) {c j : Nat} {es : List Event} (h : CoversTokens env c j es)
    (hj : env.nonWs.length ≤ j) {pre suf : List Token} (hl : Left env isWs c pre suf) :
    Fits isWs (counts es) suf := by
  induction h generalizing pre suf with
  | nil =>
    have := hl.nonWs
    rw [List.drop_eq_nil_of_le hj] at this
    exact nonWsIndexes_nil this.symm
  | one hs _ ih =>
    simp only [sigTy, Option.map_eq_some_iff] at hs
    obtain ⟨t, ht, _⟩ := hs
    obtain ⟨st, k, hi, hk⟩ := sigToken_some ht
    obtain ⟨ws, x, rest, rfl, h1, h2, h3, h4, h5⟩ := hl.next hi
    exact ⟨ws, [x], rest, rfl, h1, rfl, by simpa using h2, ih hj h5⟩
  | @text ty t i n w j es hr ht hs _ ih =>
    obtain ⟨⟨st, k, hi, hw⟩, hlen⟩ := hs
    cases n with
    | zero => exact ⟨[], [], suf, rfl, by simp, rfl, by simp, ih hj hl⟩
    | succ n =>
      simp only [sigLen, Option.bind_eq_bind, Option.bind_eq_some_iff, Option.some.injEq] at hlen
      obtain ⟨u, hu, m', hm', hsum⟩ := hlen
      obtain ⟨st', k', hi', hk⟩ := sigToken_some hu
      rw [hi] at hi'
      cases hi'
      obtain ⟨ws, x, rest, rfl, h1, h2, h3, h4, h5⟩ := hl.next hi
      rw [hk] at h4
      cases h4
      have hupos : 0 < u.len := hpos u (List.mem_of_getElem? hk)
      obtain ⟨raw, rest', rfl, g1, g2, g3⟩ := h5.adjacent hpos (start := st) (stop := st + w.length)
        (fun m t hm hws => hp ty w hr st k (List.mem_of_getElem? hi) hw m t hm hws)
        (by rw [h3]; simp; omega) (by rw [h3]; simp; omega) hm'
      refine ⟨ws, u :: raw, rest', by simp, h1, by simp [g1], ?_, ?_⟩
      · simp only [List.mem_cons]
        rintro y (rfl | hy)
        · exact h2
        · exact g2 y hy
      · exact ih hj (by rw [show i + (n + 1) = i + 1 + n by omega]; exact g3)

theorem left_new {cache : Option (CacheMap × List Event)} {g : Grammar} {isWs : NodeType → Bool}
    {text : List Nat} {tokens : List Token} :
    Left (Env.new cache g isWs text tokens) isWs 0 [] tokens := ⟨rfl, rfl⟩

theorem counts_tokenEvents (es : List Event) : counts (tokenEvents es) = counts es := by
  induction es with
  | nil => rfl
  | cons e es ih => cases e <;> simp_all [counts, tokenEvents]

/-! ## What a finished parse is -/

/-- Everything a completed parse of tokens gives. -/
theorem parseTokens_ok {d : Definition} {n ty body : Nat} {text : List Nat} {tokens : List Token}
    {ops : List BuilderOp} {events : List Event}
    (hstart : d.rules[0]? = some (.pub ty body false)) (hb : BoundedBinder d.binder)
    (hpos : ∀ t ∈ tokens, 0 < t.len) (hlen : (tokens.map (·.len)).sum = text.length)
    (hplain : PlainStrings (Env.new none d.grammar d.isWs text tokens) d.isWs)
    (h : d.parseTokens n none text tokens = .ok (ops, events)) :
    ∃ (t : NodeType) (kids : Forest) (plain : List Event),
      d.nodeTypes[ty]? = some t ∧ ops = (Forest.node t kids .nil).ops ∧
      reshuffle events = .ok plain ∧ tokenEvents plain = tokenEvents events ∧ Complete plain ∧
      Places d.isWs plain tokens ops := by
  simp only [Definition.parseTokens, bind, Result.bind] at h
  have hft : d.fileTy = d.nodeTypes[ty]? := by simp [Definition.fileTy, hstart]
  rw [hft] at h
  cases hty : d.nodeTypes[ty]? with
  | none => simp [hty, Result.ofOption] at h
  | some t =>
    simp only [hty, Result.ofOption] at h
    split at h
    · rename_i r hs
      obtain ⟨es, ticks⟩ := r
      simp only at h
      split at h
      · rename_i ops' hcv
        simp only [pure, Result.ok.injEq, Prod.mk.injEq] at h
        obtain ⟨rfl, rfl⟩ := h
        obtain ⟨t', I, k, he, ht', J, hJ, hI⟩ := Parser.synParse_reads (b := false) rfl hstart hs
        have ht : t' = t := by
          simp only [Env.new, Definition.grammar, Bool.false_eq_true, false_and, or_false] at ht'
          rw [hty] at ht'
          exact (Option.some.inj ht').symm
        subst ht
        have hcov : CoversTokens (Env.new none d.grammar d.isWs text tokens) 0
            (Env.new none d.grammar d.isWs text tokens).nonWs.length (tokenEvents I.encode) := by
          rcases hI with ⟨rfl, rfl⟩ | ⟨S, _, hS, rfl⟩
          · exact hJ.covers
          · have := hJ.covers.append hS.covers
            simpa [Items.encode_append, Items.encode, tokenEvents] using this
        have hfits := covers_fits hpos hplain hcov (Nat.le_refl _) left_new
        rw [counts_tokenEvents] at hfits
        obtain ⟨ty', fp', R, tt, ts', es', hre0, htt, hgo⟩ := convert_inv hcv
        obtain ⟨o, u, hfill, _, _, _⟩ := goWith_inv hgo
        have hre := hre0
        rw [he] at hre
        simp only [Items.encode, reshuffle, reshuffleFrom, List.head?_nil, reduceCtorEq, if_false,
          bind, Result.bind] at hre
        split at hre
        · rename_i R' hR
          simp only [pure, Result.ok.injEq, List.cons.injEq, Event.start.injEq] at hre
          obtain ⟨⟨rfl, rfl⟩, rfl⟩ := hre
          obtain ⟨c, hc1, hc2⟩ := fill_inv _ _ _ _ _ _ _ hfill
          have hz := reshuffleFrom_closes (es := I.encode ++ [.fin]) (d := 0) (c := c ++ [.fin])
            (rest := es') rfl (by simp) hR (by rw [closes_encode]; simp [Closes])
            (by simpa using hc1) (by simpa using hc2)
          subst hz
          have htok := reshuffleFrom_tokens (es := I.encode ++ [.fin]) (i := 1) rfl (by simp) hR
          have hcounts : counts c = counts I.encode := by
            have := congrArg counts htok
            rw [counts_tokenEvents, counts_tokenEvents, hc1, counts_append, counts_append]
              at this
            simpa [counts] using this
          have hb' : BoundedBinder (d.convertor t').binder := by
            intro a sp l
            simp only [Definition.convertor]
            split
            · exact Nat.le_refl _
            · exact hb a sp l
          obtain ⟨kids, k1, k2⟩ := convert_ok (d.convertor t') hb' (text := text)
            (tokens := tokens) (events := es) (c := c) (ty := t') (fp := none)
            (by intro sp; simp [Definition.convertor]) (by omega)
            (by rw [hre0, hc1]) hc2 (by rw [hcounts]; exact hfits)
          rw [hcv] at k1
          cases k1
          refine ⟨t', kids, _, rfl, rfl, hre0, ?_, ⟨t', none, R', rfl, by rw [hc1]; exact hc2⟩, ?_⟩
          · rw [he]
            simp only [Items.encode]
            simpa [tokenEvents] using htok
          · rw [hc1]; exact k2
        · cases hre
        · cases hre
      · cases h
      · cases h
    · cases h
    · cases h

end Fall
