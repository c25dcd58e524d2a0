import Verif.Lemmas.NoPanic
import Verif.Lemmas.Reading
import Verif.Lemmas.SynFuel
import Verif.Lemmas.ConvertMain

/-!
When a whole parse gives a tree.
-/

namespace Fall

open Spec Convert

theorem nonWs_length_le {isWs : NodeType → Bool} {tokens : List Token} {i o : Nat} :
    (nonWsIndexes isWs i o tokens).length ≤ tokens.length := by
  induction tokens generalizing i o with
  | nil => simp [nonWsIndexes]
  | cons t ts ih =>
    unfold nonWsIndexes
    split
    · have := ih (i := i + t.len) (o := o + 1); simp; omega
    · have := ih (i := i + t.len) (o := o + 1); simp; omega

theorem length_le_sum {tokens : List Token} (h : ∀ t ∈ tokens, 0 < t.len) :
    tokens.length ≤ (tokens.map (·.len)).sum := by
  induction tokens with
  | nil => simp
  | cons t ts ih =>
    have := ih fun t ht => h t (by simp [ht])
    have := h t (by simp)
    simp; omega

theorem closes_of_nest {es : List Event} {d k : Nat} (h : nest d es = some k) (h2 : Closes (k + 1) [.fin]) :
    Closes (d + 1) (es ++ [.fin]) := by
  induction es generalizing d with
  | nil => simp only [nest, Option.some.injEq] at h; subst h; exact h2
  | cons e es ih =>
    cases e with
    | start ty fp => exact ih (d := d + 1) h
    | token ty n => simp only [nest] at h; simp only [List.cons_append, Closes]; exact ih h
    | cached key n => simp only [nest] at h; simp only [List.cons_append, Closes]; exact ih h
    | fin =>
      cases d with
      | zero => simp [nest] at h
      | succ d => exact ih (d := d) h

/-- If the interpreter completes and no link dangles, the rest of the parse completes. -/
theorem parseTokens_of_synParse {d : Definition} {n ty body ticks : Nat} {text : List Nat} {tokens : List Token}
    {es : List Event} (hstart : d.rules[0]? = some (.pub ty body false)) (hb : BoundedBinder d.binder)
    (hpos : ∀ t ∈ tokens, 0 < t.len) (hlen : (tokens.map (·.len)).sum = text.length)
    (hplain : PlainStrings (Env.new none d.grammar d.isWs text tokens) d.isWs)
    (hl : LinksOk (Env.new none d.grammar d.isWs text tokens))
    (hs : synParse (Env.new none d.grammar d.isWs text tokens) n = .ok (es, ticks)) :
    ∃ t kids, leafLen (Forest.node t kids .nil).ops = text.length ∧
      ∀ m, synParse (Env.new none d.grammar d.isWs text tokens) m = .ok (es, ticks) →
        d.parseTokens m none text tokens = .ok ((Forest.node t kids .nil).ops, es) := by
  obtain ⟨t, I, k, rfl, ht, J, hJ, hI⟩ := Parser.synParse_reads (b := false) rfl hstart hs
  have ht : d.nodeTypes[ty]? = some t := by
    simpa [Env.new, Definition.grammar] using ht
  have hcov : CoversTokens (Env.new none d.grammar d.isWs text tokens) 0
      (Env.new none d.grammar d.isWs text tokens).nonWs.length (tokenEvents I.encode) := by
    rcases hI with ⟨rfl, rfl⟩ | ⟨S, _, hS, rfl⟩
    · exact hJ.covers
    · have := hJ.covers.append hS.covers
      simpa [Items.encode_append, Items.encode, tokenEvents] using this
  have hfits := covers_fits hpos hplain hcov (Nat.le_refl _) left_new
  have hw : (Items.node t I .nil).WF := by
    rcases hI with ⟨_, rfl⟩ | ⟨S, _, hS, rfl⟩
    · exact ⟨hJ.wf hl (Parser.passed_new _), trivial⟩
    · exact ⟨(hJ.wf hl (Parser.passed_new _)).append ⟨hS.wf hl (Parser.passed_new _), trivial⟩, trivial⟩
  have hre : reshuffle (Items.node t I .nil).encode = .ok (.start t none :: (I.resolve ++ [.fin])) := by
    rw [reshuffle_encode _ hw]
    simp [Items.resolve, Items.resolveWith]
  have htok := reshuffleFrom_tokens rfl (by simp) hre
  have hcounts : counts I.resolve = counts I.encode := by
    have := congrArg counts htok
    rw [counts_tokenEvents, counts_tokenEvents] at this
    simpa [counts, Items.encode] using this
  have hb' : BoundedBinder (d.convertor t).binder := by
    intro a sp l
    simp only [Definition.convertor]
    split
    · exact Nat.le_refl _
    · exact hb a sp l
  obtain ⟨kids, k1, k2⟩ := convert_ok (d.convertor t) hb' (text := text) (tokens := tokens)
    (ty := t) (fp := none) (by intro sp; simp [Definition.convertor]) (by omega) hre
    (closes_of_nest (nested_resolve I) rfl) (by rw [hcounts, ← counts_tokenEvents]; exact hfits)
  refine ⟨t, kids, by rw [k2.leafLen, hlen], fun m hm => ?_⟩
  have hft : d.fileTy = some t := by simp [Definition.fileTy, hstart, ht]
  simp only [Definition.parseTokens, bind, Result.bind, hft, Result.ofOption, hm, k1, pure]

/-- A whole parse completes with any budget of at least `(bytes + 1) * (R + 1) + 2`. -/
theorem parseTokens_total {d : Definition} {R ty body : Nat} {text : List Nat} {tokens : List Token}
    (hsafe : Safe d.grammar) (hlink : Linked d.grammar) (hterm : Terminating d.grammar R)
    (hstart : d.rules[0]? = some (.pub ty body false)) (hb : BoundedBinder d.binder)
    (hpos : ∀ t ∈ tokens, 0 < t.len) (hlen : (tokens.map (·.len)).sum = text.length)
    (hplain : PlainStrings (Env.new none d.grammar d.isWs text tokens) d.isWs) :
    ∃ t kids es, leafLen (Forest.node t kids .nil).ops = text.length ∧
      ∀ n, (text.length + 1) * (R + 1) + 2 ≤ n →
        d.parseTokens n none text tokens = .ok ((Forest.node t kids .nil).ops, es) := by
  have hn : ∀ n, (text.length + 1) * (R + 1) + 2 ≤ n →
      ((Env.new none d.grammar d.isWs text tokens).nonWs.length + 1) * (R + 1) + 2 ≤ n := by
    intro n hn
    refine Nat.le_trans (Nat.add_le_add_right (Nat.mul_le_mul_right _ (Nat.add_le_add_right ?_ 1)) 2) hn
    refine Nat.le_trans (nonWs_length_le (tokens := tokens)) ?_
    rw [← hlen]
    exact length_le_sum hpos
  have hc : EmptyHitsNullable (Env.new none d.grammar d.isWs text tokens) := by
    intro cache evs h
    cases h
  have htimeout := Parser.synParse_enough hterm hc _ (hn _ (Nat.le_refl _))
  have hpanic := Parser.synParse_safe (Parser.envOk_new (g := d.grammar) (isWs := d.isWs) (Nat.le_of_eq hlen)) hsafe
    ((text.length + 1) * (R + 1) + 2)
  cases hs : synParse (Env.new none d.grammar d.isWs text tokens) ((text.length + 1) * (R + 1) + 2) with
  | panic => exact absurd hs hpanic
  | timeout => exact absurd hs htimeout
  | ok r =>
    obtain ⟨es, ticks⟩ := r
    obtain ⟨t, kids, h1, h2⟩ := parseTokens_of_synParse hstart hb hpos hlen hplain hlink.linksOk hs
    refine ⟨t, kids, es, h1, fun n hle => h2 n ?_⟩
    rw [← hs]
    exact (synParse_le (Env.new none d.grammar d.isWs text tokens) hle).resolve_left htimeout

/-- All strings of the grammar consist of visible ASCII characters other than slashes. -/
def visible (rules : List Expr) : Bool :=
  rules.all fun
    | .contextualToken _ w => w.all fun b => 33 ≤ b && b < 127 && b != 47
    | _ => true

theorem spaceless_of_visible {d : Definition} (h : visible d.rules = true) (hl : BlankStart d.isWs d.lexer) :
    SpacelessStrings d := by
  intro ty w hm v rest hv hne _
  have hw := List.all_eq_true.1 h _ hm
  simp only [List.all_eq_true, Bool.and_eq_true, decide_eq_true_eq, bne_iff_ne] at hw
  cases v with
  | nil => exact absurd rfl hne
  | cons b v =>
    obtain ⟨⟨h1, h2⟩, h3⟩ := hw b (hv.subset (by simp))
    exact hl b (v ++ rest) h1 h2 h3

end Fall
