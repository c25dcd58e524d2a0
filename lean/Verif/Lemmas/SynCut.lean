import Verif.Lemmas.Sim
import Verif.Lemmas.ConvertMain
import Verif.Spec.Peg

/-!
Facts about the significant tokens of a text, and runs that see only some of the tokens.
-/

namespace Fall

open Spec Convert

theorem nonWsIndexes_append {isWs : NodeType → Bool} {len i : Nat} {ts us : List Token} :
    nonWsIndexes isWs len i (ts ++ us) = nonWsIndexes isWs len i ts ++
      nonWsIndexes isWs (len + (ts.map (·.len)).sum) (i + ts.length) us := by
  induction ts generalizing len i with
  | nil => simp [nonWsIndexes]
  | cons t ts ih =>
    simp only [List.cons_append, nonWsIndexes]
    split
    · rw [ih]; simp [Nat.add_assoc, Nat.add_comm, Nat.add_left_comm]
    · rw [ih]; simp [Nat.add_assoc, Nat.add_comm, Nat.add_left_comm]

theorem nonWsIndexes_ws {isWs : NodeType → Bool} {len i : Nat} {ws : List Token}
    (h : ∀ t ∈ ws, isWs t.ty = true) : nonWsIndexes isWs len i ws = [] := by
  induction ws generalizing len i with
  | nil => rfl
  | cons t ws ih =>
    rw [nonWsIndexes, if_pos (h t (by simp))]
    exact ih fun t ht => h t (by simp [ht])

theorem mem_nonWsIndexes {isWs : NodeType → Bool} {len i : Nat} {ts : List Token} {x : Nat × Nat}
    (h : x ∈ nonWsIndexes isWs len i ts) :
    x.1 ≤ len + (ts.map (·.len)).sum ∧ x.2 < i + ts.length := by
  induction ts generalizing len i with
  | nil => simp [nonWsIndexes] at h
  | cons t ts ih =>
    simp only [nonWsIndexes] at h
    split at h
    · obtain ⟨h1, h2⟩ := ih h
      simp only [List.map_cons, List.sum_cons, List.length_cons]
      omega
    · rcases List.mem_cons.1 h with rfl | h
      · simp
      · obtain ⟨h1, h2⟩ := ih h
        simp only [List.map_cons, List.sum_cons, List.length_cons]
        omega

variable {cache : Option (CacheMap × List Event)} {g : Grammar} {isWs : NodeType → Bool}

theorem envOk_new {text : List Nat} {tokens : List Token}
    (hlen : (tokens.map (·.len)).sum ≤ text.length) : EnvOk (Env.new cache g isWs text tokens) := by
  intro x hx
  obtain ⟨h1, h2⟩ := mem_nonWsIndexes hx
  exact ⟨by simp only [Env.new]; omega, by simpa [Env.new] using h2⟩

/-- Every significant token but the first ones is left after some of the tokens. -/
theorem left_at {text : List Nat} {tokens : List Token} (i : Nat)
    (hi : i ≤ (Env.new cache g isWs text tokens).nonWs.length) :
    ∃ pre suf, Left (Env.new cache g isWs text tokens) isWs i pre suf := by
  induction i with
  | zero => exact ⟨_, _, left_new⟩
  | succ i ih =>
    obtain ⟨pre, suf, h⟩ := ih (by omega)
    obtain ⟨ws, x, rest, _, _, _, _, _, h'⟩ := h.next
      (st := (Env.new cache g isWs text tokens).nonWs[i].1)
      (k := (Env.new cache g isWs text tokens).nonWs[i].2) (by
      rw [List.getElem?_eq_getElem (by omega)])
    exact ⟨_, _, h'⟩

theorem Left.sigLen_le {env : Env} {i n m : Nat} {pre suf : List Token}
    (h : Left env isWs i pre suf) (hs : sigLen env i n = some m) :
    (pre.map (·.len)).sum + m ≤ (env.tokens.map (·.len)).sum := by
  induction n generalizing i m pre suf with
  | zero =>
    cases hs
    rw [h.tokens]
    simp
  | succ n ih =>
    simp only [sigLen, Option.bind_eq_bind, Option.bind_eq_some_iff, Option.some.injEq] at hs
    obtain ⟨t, ht, m', hm', rfl⟩ := hs
    obtain ⟨st, k, hi, hk⟩ := sigToken_some ht
    obtain ⟨ws, x, rest, rfl, h1, h2, h3, h4, h5⟩ := h.next hi
    rw [hk] at h4
    cases h4
    have := ih h5 hm'
    simp only [List.map_append, List.map_cons, List.sum_append, List.sum_cons, List.map_nil,
      List.sum_nil] at this
    omega

theorem start_sigLen_le {text : List Nat} {tokens : List Token} {i n m st k : Nat}
    (hi : (Env.new cache g isWs text tokens).nonWs[i]? = some (st, k))
    (hs : sigLen (Env.new cache g isWs text tokens) i n = some m) :
    st + m ≤ (tokens.map (·.len)).sum := by
  have hlt := (List.getElem?_eq_some_iff.1 hi).1
  cases n with
  | zero =>
    cases hs
    have := (mem_nonWsIndexes (List.mem_of_getElem? hi)).1
    omega
  | succ n =>
    simp only [sigLen, Option.bind_eq_bind, Option.bind_eq_some_iff, Option.some.injEq] at hs
    obtain ⟨t, ht, m', hm', rfl⟩ := hs
    obtain ⟨st', k', hi', hk⟩ := sigToken_some ht
    rw [hi] at hi'
    cases hi'
    obtain ⟨pre, suf, h⟩ := left_at (g := g) i (Nat.le_of_lt hlt)
    obtain ⟨ws, x, rest, rfl, h1, h2, h3, h4, h5⟩ := h.next hi
    rw [hk] at h4
    cases h4
    have := Left.sigLen_le h5 hm'
    simp only [List.map_append, List.map_cons, List.sum_append, List.sum_cons, List.map_nil,
      List.sum_nil] at this h3
    show _ ≤ ((Env.new cache g isWs text tokens).tokens.map (·.len)).sum
    omega

/-- The types of the significant tokens are the input at the beginning. -/
theorem input_start {text : List Nat} {tokens : List Token} :
    Input (Env.new cache g isWs text tokens) (Env.new cache g isWs text tokens).startPos
      ((tokens.filter fun t => !isWs t.ty).map (·.ty)) := by
  suffices h : ∀ (suf pre : List Token) (i : Nat), Left (Env.new cache g isWs text tokens) isWs i pre suf →
      i ≤ (Env.new cache g isWs text tokens).nonWs.length →
      Input (Env.new cache g isWs text tokens) ⟨i, (Env.new cache g isWs text tokens).nonWs.length⟩
        ((suf.filter fun t => !isWs t.ty).map (·.ty)) from h _ _ 0 left_new (Nat.zero_le _)
  generalize Env.new cache g isWs text tokens = env
  intro suf
  generalize hd : suf.length = d
  induction d using Nat.strongRecOn generalizing suf with
  | ind d ih =>
    intro pre i h hle
    by_cases hi : i = env.nonWs.length
    · have := h.nonWs
      rw [List.drop_eq_nil_of_le (by omega)] at this
      have hall := nonWsIndexes_nil this.symm
      rw [List.filter_eq_nil_iff.2 (by simpa using hall)]
      exact .nil hi
    · have hlt : i < env.nonWs.length := by omega
      obtain ⟨ws, x, rest, rfl, h1, h2, h3, h4, h5⟩ := h.next (st := env.nonWs[i].1)
        (k := env.nonWs[i].2) (by rw [List.getElem?_eq_getElem hlt])
      have hfil : ((ws ++ x :: rest).filter fun t => !isWs t.ty) = x :: rest.filter fun t => !isWs t.ty := by
        rw [List.filter_append, List.filter_eq_nil_iff.2 (by simpa using h1)]
        simp [h2]
      rw [hfil]
      refine .cons hi ?_ (ih rest.length (by simp at hd; omega) rest rfl _ _ h5 hlt)
      unfold sigTy sigToken
      rw [List.getElem?_eq_getElem hlt]
      simp [h4]

/-! ## Tokens after the layer do not matter -/

section cut

variable {a x : List Nat} {pre suf : List Token}

theorem cut_nonWs : (Env.new cache g isWs (a ++ x) (pre ++ suf)).nonWs =
    (Env.new cache g isWs a pre).nonWs ++
      nonWsIndexes isWs (pre.map (·.len)).sum pre.length suf := by
  simp only [Env.new, nonWsIndexes_append, Nat.zero_add]

theorem cut_sigToken {i : Nat} (hi : i < (Env.new cache g isWs a pre).nonWs.length) :
    sigToken (Env.new cache g isWs (a ++ x) (pre ++ suf)) i = sigToken (Env.new cache g isWs a pre) i := by
  unfold sigToken
  rw [cut_nonWs, List.getElem?_append_left hi, List.getElem?_eq_getElem hi]
  have := (mem_nonWsIndexes (List.getElem_mem hi)).2
  simp only [Option.bind_eq_bind, Option.bind_some]
  show (pre ++ suf)[_]? = pre[_]?
  exact List.getElem?_append_left (by omega)

theorem sigLen_congr {env1 env2 : Env} {K : Nat} (h : ∀ i, i < K → sigToken env1 i = sigToken env2 i)
    {i n : Nat} (hn : i + n ≤ K) : sigLen env1 i n = sigLen env2 i n := by
  induction n generalizing i with
  | zero => rfl
  | succ n ih =>
    simp only [sigLen]
    rw [h i (by omega), ih (by omega)]

theorem cut_spells (hlen : (pre.map (·.len)).sum = a.length) {pos : Pos}
    (hp : Parser.Within (Env.new cache g isWs a pre).nonWs.length true pos) {n : Nat} {w : List Nat} :
    SpellsFrom (Env.new cache g isWs (a ++ x) (pre ++ suf)) pos n w ↔
      SpellsFrom (Env.new cache g isWs a pre) pos n w := by
  have h1 := hp.1
  have h2 := hp.2
  unfold SpellsFrom SpelledBy
  by_cases hn : pos.cur + n ≤ pos.stop
  · by_cases hc : pos.cur = pos.stop
    · simp [hc]
    have hlen' : ∀ m, m ≤ n → sigLen (Env.new cache g isWs (a ++ x) (pre ++ suf)) pos.cur m =
        sigLen (Env.new cache g isWs a pre) pos.cur m := fun m hm =>
      sigLen_congr (K := (Env.new cache g isWs a pre).nonWs.length) (fun i hi => cut_sigToken hi) (by omega)
    have hnw : (Env.new cache g isWs (a ++ x) (pre ++ suf)).nonWs[pos.cur]? =
        (Env.new cache g isWs a pre).nonWs[pos.cur]? := by
      rw [cut_nonWs, List.getElem?_append_left (by omega)]
    rw [hlen' n (Nat.le_refl _), hnw]
    have hpre : ∀ st k, (Env.new cache g isWs a pre).nonWs[pos.cur]? = some (st, k) →
        sigLen (Env.new cache g isWs a pre) pos.cur n = some w.length →
        (w <+: (Env.new cache g isWs (a ++ x) (pre ++ suf)).text.drop st ↔
          w <+: (Env.new cache g isWs a pre).text.drop st) := by
      intro st k hst hs
      have hle := start_sigLen_le hst hs
      show w <+: (a ++ x).drop st ↔ w <+: a.drop st
      rw [List.drop_append_of_le_length (by omega)]
      constructor
      · intro h
        exact List.prefix_of_prefix_length_le h (List.prefix_append _ _) (by simp; omega)
      · intro h
        exact h.trans (List.prefix_append _ _)
    constructor
    · rintro ⟨c1, ⟨⟨st, k, c2, c3⟩, c4⟩, c5, c6⟩
      exact ⟨c1, ⟨⟨st, k, c2, (hpre st k c2 c4).1 c3⟩, c4⟩, c5,
        fun m hm => by rw [← hlen' m (by omega)]; exact c6 m hm⟩
    · rintro ⟨c1, ⟨⟨st, k, c2, c3⟩, c4⟩, c5, c6⟩
      exact ⟨c1, ⟨⟨st, k, c2, (hpre st k c2 c4).2 c3⟩, c4⟩, c5,
        fun m hm => by rw [hlen' m (by omega)]; exact c6 m hm⟩
  · simp [hn]

theorem cut_byText (hlen : (pre.map (·.len)).sum = a.length)
    (hlen' : (suf.map (·.len)).sum ≤ x.length) {pos : Pos}
    (hp : Parser.Within (Env.new cache g isWs a pre).nonWs.length true pos) {w : List Nat} {ty : Nat}
    {s : PState} :
    Parser.bumpByText (Env.new cache g isWs (a ++ x) (pre ++ suf)) pos w ty s =
      Parser.bumpByText (Env.new cache g isWs a pre) pos w ty s := by
  have hE1 : EnvOk (Env.new cache g isWs (a ++ x) (pre ++ suf)) := envOk_new (by simp; omega)
  have hE2 : EnvOk (Env.new cache g isWs a pre) := envOk_new (by omega)
  have hp1 : PosOk (Env.new cache g isWs (a ++ x) (pre ++ suf)) pos :=
    ⟨hp.1, by rw [cut_nonWs, List.length_append]; exact Nat.le_trans hp.2.1 (Nat.le_add_right _ _)⟩
  rcases Parser.bumpByText_any (s := s) (w := w) (ty := ty) hE1 hp1 with ⟨n, h1, h2⟩ | ⟨h1, h2⟩
  · rcases Parser.bumpByText_any (s := s) (w := w) (ty := ty) hE2 ⟨hp.1, hp.2.1⟩ with ⟨m, h3, h4⟩ | ⟨h3, h4⟩
    · obtain rfl := Parser.SpellsFrom.unique ((cut_spells hlen hp).1 h1) h3
      rw [h2, h4]
      rfl
    · exact absurd ((cut_spells hlen hp).1 h1) (h3 n)
  · rcases Parser.bumpByText_any (s := s) (w := w) (ty := ty) hE2 ⟨hp.1, hp.2.1⟩ with ⟨m, h3, h4⟩ | ⟨h3, h4⟩
    · exact absurd ((cut_spells hlen hp).2 h3) (h1 m)
    · rw [h2, h4]

theorem cut_envSim (hlen : (pre.map (·.len)).sum = a.length)
    (hlen' : (suf.map (·.len)).sum ≤ x.length) :
    Parser.EnvSim (Env.new none g isWs a pre).nonWs.length
      (Env.new none g isWs (a ++ x) (pre ++ suf)) (Env.new none g isWs a pre) :=
  ⟨rfl, fun _ hi => cut_sigToken hi, fun _ _ _ _ hp => cut_byText hlen hlen' hp,
    by rw [cut_nonWs, List.length_append]; exact Nat.le_add_right _ _, Nat.le_refl _⟩

end cut

namespace Parser

theorem EnvSim.symm {K : Nat} {env1 env2 : Env} (h : EnvSim K env1 env2) :
    EnvSim K env2 env1 :=
  ⟨h.grammar.symm, fun i hi => (h.tok i hi).symm, fun p w ty s hp => (h.byText p w ty s hp).symm,
    h.len2, h.len1⟩

theorem Alike.refl (s : PState) : Alike true s s := ⟨rfl, rfl, rfl, rfl, rfl, fun _ => ⟨rfl, rfl⟩⟩

theorem Alike.eq {s1 s2 : PState} (h : Alike true s1 s2) : s1 = s2 := by
  obtain ⟨h1, h2, h3, h4, h5, h6⟩ := h
  obtain ⟨h6, h7⟩ := h6 rfl
  cases s1
  cases s2
  simp_all

theorem noHits_none {env : Env} (h : env.cache = none) : NoHits env := by
  intro _ _ h'
  rw [h] at h'
  cases h'

theorem simGrammar_strict {K : Nat} {env1 env2 : Env} (hc : NoHits env1) :
    SimGrammar true (fun _ => True) (fun _ _ _ => True) K env1 env2 := by
  intro e rule _
  cases rule <;> simp [SimRule, hc]

/-- Environments that agree on the tokens of the layer give the same runs. -/
theorem runs_congr {K : Nat} {env1 env2 : Env} (h : EnvSim K env1 env2) (hc1 : env1.cache = none)
    (hc2 : env2.cache = none) {e : Nat} {pos : Pos} (hp : Within K true pos) {s s' : PState} {r : Option Pos} :
    Runs env1 e pos s r s' ↔ Runs env2 e pos s r s' := by
  have key : ∀ {env1 env2 : Env}, EnvSim K env1 env2 → env1.cache = none → env2.cache = none → Runs env2 e pos s r s' →
      Runs env1 e pos s r s' := by
    rintro env1 env2 h hc1 hc2 ⟨n, hr⟩
    obtain ⟨_, _, h3⟩ := parseExpr_sim (pan := False) h ⟨noHits_none hc2, Or.inl hc1⟩
      (simGrammar_strict (noHits_none hc1)) n s.predicate true e pos trivial
      hp s ⟨rfl, fun _ _ _ => trivial, by simp⟩ r s' hr
    rcases h3 s (Alike.refl s) with ⟨h, _⟩ | ⟨s1, h1, ha⟩
    · cases h
    · cases ha.eq
      exact ⟨n, h1⟩
  exact ⟨key h.symm hc2 hc1, key h hc1 hc2⟩

end Parser

/-! ## Tokens that spell a string -/

/-- Adjacent significant tokens from significant token number `i` on. -/
theorem Left.sigLen_raw {env : Env} {i : Nat} {pre raw suf : List Token}
    (h : Left env isWs i pre (raw ++ suf)) (hraw : ∀ t ∈ raw, isWs t.ty = false) :
    sigLen env i raw.length = some (raw.map (·.len)).sum ∧
      Left env isWs (i + raw.length) (pre ++ raw) suf := by
  induction raw generalizing i pre with
  | nil => exact ⟨rfl, by simpa using h⟩
  | cons t raw ih =>
    have ht := hraw t (by simp)
    have hn := h.nonWs
    rw [List.cons_append, nonWsIndexes, if_neg (by simp [ht])] at hn
    have hi : env.nonWs[i]? = some ((pre.map (·.len)).sum, pre.length) := by
      have := congrArg List.head? hn
      simpa [List.head?_drop] using this
    obtain ⟨ws, x, rest, h0, h1, h2, h3, h4, h5⟩ := h.next hi
    cases ws with
    | cons w ws =>
      simp only [List.cons_append, List.cons.injEq] at h0
      have := h1 w (by simp)
      rw [← h0.1, ht] at this
      cases this
    | nil =>
      simp only [List.cons_append, List.nil_append, List.cons.injEq] at h0
      obtain ⟨rfl, rfl⟩ := h0
      obtain ⟨g1, g2⟩ := ih (by simpa using h5) fun t ht => hraw t (by simp [ht])
      refine ⟨?_, by simpa [Nat.add_assoc, Nat.add_comm, Nat.add_left_comm] using g2⟩
      simp only [List.length_cons, sigLen]
      rw [g1]
      unfold sigToken
      rw [hi]
      simp [h4]

/-- If no whitespace begins inside of the string, the tokens spelling it are exactly the tokens from
there on that make it up. -/
theorem spellsFrom_iff {text : List Nat} {tokens : List Token} (hpos : ∀ t ∈ tokens, 0 < t.len)
    {pos : Pos} (hp : pos.cur < pos.stop)
    (hstop : pos.stop ≤ (Env.new cache g isWs text tokens).nonWs.length) {st k : Nat}
    (hi : (Env.new cache g isWs text tokens).nonWs[pos.cur]? = some (st, k)) {w : List Nat}
    (hplain : ∀ (m : Nat) (t : Token), tokens[m]? = some t → isWs t.ty = true →
      ((tokens.take m).map (·.len)).sum ≤ st ∨ st + w.length ≤ ((tokens.take m).map (·.len)).sum)
    {n : Nat} :
    SpellsFrom (Env.new cache g isWs text tokens) pos n w ↔
      w <+: text.drop st ∧ ∃ raw, raw <+: tokens.drop k ∧ raw.length = n ∧
        (raw.map (·.len)).sum = w.length ∧ pos.cur + n ≤ pos.stop := by
  have hlt := (List.getElem?_eq_some_iff.1 hi).1
  obtain ⟨pre0, suf0, hl0⟩ := left_at (cache := cache) (g := g) (isWs := isWs) (text := text)
    (tokens := tokens) pos.cur (by omega)
  obtain ⟨ws, x, rest, rfl, h1, h2, h3, h4, h5⟩ := hl0.next hi
  have htok : tokens = pre0 ++ ws ++ x :: rest := by
    have := hl0.tokens
    simpa [Env.new] using this
  have hk : k = (pre0 ++ ws).length := by
    have h6 := hl0.nonWs
    have hd : (Env.new cache g isWs text tokens).nonWs.drop pos.cur =
        (st, k) :: (Env.new cache g isWs text tokens).nonWs.drop (pos.cur + 1) := by
      obtain ⟨hlt, he⟩ := List.getElem?_eq_some_iff.1 hi
      rw [List.drop_eq_getElem_cons hlt, he]
    rw [h6] at hd
    rw [nonWsIndexes_append, nonWsIndexes, if_neg (by simp [h2])] at hd
    rw [nonWsIndexes_ws h1] at hd
    simp only [List.nil_append, List.cons.injEq, Prod.mk.injEq] at hd
    rw [← hd.1.2]
    simp
  have hl1 : Left (Env.new cache g isWs text tokens) isWs pos.cur (pre0 ++ ws) (x :: rest) := by
    refine ⟨by rw [hl0.tokens]; simp, ?_⟩
    rw [hl0.nonWs, nonWsIndexes_append]
    rw [nonWsIndexes_ws h1]
    simp
  have hdrop : tokens.drop k = x :: rest := by
    rw [htok, hk, List.drop_left]
  constructor
  · rintro ⟨c1, ⟨⟨st', k', c2, c3⟩, c4⟩, c5, c6⟩
    rw [hi] at c2
    cases c2
    refine ⟨c3, ?_⟩
    cases n with
    | zero => exact ⟨[], List.nil_prefix, rfl, by simpa [sigLen] using c4, c5⟩
    | succ n =>
      simp only [sigLen, Option.bind_eq_bind, Option.bind_eq_some_iff, Option.some.injEq] at c4
      obtain ⟨u, hu, m', hm', hsum⟩ := c4
      obtain ⟨st', k', hi', hk'⟩ := sigToken_some hu
      rw [hi] at hi'
      cases hi'
      rw [hk'] at h4
      obtain rfl : u = x := Option.some.inj h4
      have hupos : 0 < u.len := hpos u (List.mem_of_getElem? hk')
      obtain ⟨raw, rest', rfl, g1, g2, g3⟩ := h5.adjacent hpos (start := st) (stop := st + w.length)
        hplain (by rw [h3]; simp; omega) (by rw [h3]; simp; omega) hm'
      refine ⟨u :: raw, ?_, by simp [g1], ?_, c5⟩
      · rw [hdrop]
        exact ⟨rest', by simp⟩
      · obtain ⟨g4, _⟩ := Left.sigLen_raw h5 g2
        rw [g1, hm'] at g4
        cases g4
        simpa using hsum
  · rintro ⟨c1, raw, c2, rfl, c3, c4⟩
    rw [hdrop] at c2
    have hns : ∀ t ∈ raw, isWs t.ty = false := by
      intro t ht
      by_cases hw : isWs t.ty = false
      · exact hw
      · exfalso
        have hw : isWs t.ty = true := by simpa using hw
        obtain ⟨r1, r2, rfl⟩ := List.append_of_mem ht
        obtain ⟨post, hpost⟩ := c2
        have hm : tokens[(pre0 ++ ws).length + r1.length]? = some t := by
          rw [htok, ← hpost, List.getElem?_append_right (by omega)]
          simp
        have := hplain _ _ hm hw
        have htake : tokens.take ((pre0 ++ ws).length + r1.length) = pre0 ++ ws ++ r1 := by
          rw [htok, ← hpost, List.take_length_add_append]
          simp
        rw [htake] at this
        cases r1 with
        | nil =>
          simp only [List.nil_append, List.cons_append, List.cons.injEq] at hpost
          rw [hpost.1] at hw
          rw [hw] at h2
          cases h2
        | cons y r1 =>
          have hy : 0 < y.len := hpos y (by rw [htok, ← hpost]; simp)
          have htl : 0 < t.len := hpos t (by rw [htok, ← hpost]; simp)
          simp only [List.map_append, List.sum_append, List.map_cons, List.sum_cons] at this c3 h3
          omega
    obtain ⟨post, hpost⟩ := c2
    rw [← hpost] at hl1
    refine ⟨by omega, ⟨⟨st, k, hi, c1⟩, ?_⟩, c4, ?_⟩
    · rw [← c3]
      exact (Left.sigLen_raw hl1 hns).1
    · intro m hm hs
      have := (Left.sigLen_raw (raw := raw.take m) (suf := raw.drop m ++ post)
        (by rw [← List.append_assoc, List.take_append_drop]; exact hl1)
        fun t ht => hns t (List.mem_of_mem_take ht)).1
      rw [List.length_take, Nat.min_eq_left (by omega), hs] at this
      have hsum : ((raw.take m).map (·.len)).sum + ((raw.drop m).map (·.len)).sum = w.length := by
        rw [← c3, ← List.sum_append, ← List.map_append, List.take_append_drop]
      have hz : ((raw.drop m).map (·.len)).sum = 0 := by
        have := Option.some.inj this
        omega
      cases hdm : raw.drop m with
      | nil =>
        have := congrArg List.length hdm
        simp at this
        omega
      | cons y ys =>
        rw [hdm] at hz
        have hy : 0 < y.len := hpos y (by
          rw [htok, ← hpost]
          have : y ∈ raw := List.mem_of_mem_drop (by rw [hdm]; simp)
          simp [this])
        simp at hz
        omega

end Fall
