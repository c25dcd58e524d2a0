import Verif.Lemmas.Grouping
import Verif.Lemmas.SynRuns
import Verif.Lemmas.Reshuffle

/-!
The operator parser builds the conventional grouping.
-/

namespace Fall

open Spec

namespace Parser

/-- With enough budget and outside of lookahead the events become `E'`. The parameters of `m` are the
budgets for expressions, for `prattGo` and for `prattLoop`. -/
def Does (m : Nat → Nat → Nat → P β) (E : List Event) (r : β) (E' : List Event) : Prop :=
  ∀ s : PState, s.predicate = false → s.events = E → ∃ s', s'.predicate = false ∧ s'.events = E' ∧
    ∃ n, ∀ k l q, n ≤ k → n ≤ l → n ≤ q → m k l q s = .ok r s'

variable {E E1 E2 : List Event}

theorem Does.bind {m : Nat → Nat → Nat → P β} {f : Nat → Nat → Nat → β → P γ} {b : β} {c : γ}
    (h : Does m E b E1) (hf : Does (fun k l q => f k l q b) E1 c E2) :
    Does (fun k l q => m k l q >>= f k l q) E c E2 := by
  intro s hp hE
  obtain ⟨s1, hp1, hE1, n1, h1⟩ := h s hp hE
  obtain ⟨s2, hp2, hE2, n2, h2⟩ := hf s1 hp1 hE1
  exact ⟨s2, hp2, hE2, max n1 n2, fun k l q hk hl hq => P.bind_ok.2 ⟨b, s1,
    h1 k l q (by omega) (by omega) (by omega), h2 k l q (by omega) (by omega) (by omega)⟩⟩

theorem Does.pure {b : β} : Does (fun _ _ _ => Pure.pure b) E b E :=
  fun s hp hE => ⟨s, hp, hE, 0, fun _ _ _ _ _ _ => rfl⟩

theorem does_event {ev : Event} : Does (fun _ _ _ => event ev) E () (E ++ [ev]) := by
  intro s hp hE
  refine ⟨emit s [ev], ?_, ?_, 0, fun _ _ _ _ _ _ => rfl⟩ <;> simp [emit, hp, hE]

theorem does_mark : Does (fun _ _ _ => mark) E E.length E :=
  fun s hp hE => ⟨s, hp, hE, 0, fun _ _ _ _ _ _ => by rw [← hE]; rfl⟩

theorem does_lift {o : Option β} {b : β} (h : o = some b) : Does (fun _ _ _ => P.lift o) E b E :=
  fun s hp hE => ⟨s, hp, hE, 0, fun _ _ _ _ _ _ => P.lift_ok.2 ⟨h, rfl⟩⟩

theorem does_startTy {t : NodeType} :
    Does (fun _ _ _ => startTy t) E E.length (E ++ [.start t none]) :=
  Does.bind does_mark (Does.bind does_event Does.pure)

theorem does_start {env : Env} {ty : Nat} {t : NodeType} (h : env.grammar.nodeTypes[ty]? = some t) :
    Does (fun _ _ _ => start env ty) E E.length (E ++ [.start t none]) :=
  Does.bind (does_lift h) does_startTy

theorem does_startError : Does (fun _ _ _ => startError) E () (E ++ [.start ERROR none]) :=
  Does.bind does_startTy Does.pure

theorem does_setPrev {t : NodeType} :
    Does (fun _ _ _ => P.modify fun s => { s with prev := some t }) E () E :=
  fun s hp hE => ⟨{ s with prev := some t }, hp, hE, 0, fun _ _ _ _ _ _ => rfl⟩

theorem does_rollback {es : List Event} :
    Does (fun _ _ _ => rollback E.length) (E ++ es) () E := by
  intro s hp hE
  refine ⟨{ s with events := E }, hp, rfl, 0, fun _ _ _ _ _ _ => ?_⟩
  unfold rollback
  simp [hE]

theorem does_forwardParent {ty : NodeType} {fp : Option Nat} {tl X : List Event} :
    Does (fun _ _ _ => forwardParent E.length (E ++ .start ty fp :: tl).length)
      (E ++ .start ty fp :: tl ++ X) ()
      (E ++ .start ty (some (tl.length + 1)) :: tl ++ X) := by
  intro s hp hE
  refine ⟨{ s with events := E ++ .start ty (some (tl.length + 1)) :: tl ++ X }, hp, rfl, 0,
    fun _ _ _ _ _ _ => ?_⟩
  show forwardParent _ _ s = _
  unfold forwardParent
  rw [hE]
  simp only [List.append_assoc, List.cons_append, get_mark, set_mark, List.length_append, List.length_cons]
  simp

variable {env : Env}

theorem does_of_runs {e : Nat} {pos : Pos} {r : Option Pos}
    (h : ∀ s, s.predicate = false → s.events = E → ∃ s', Runs env e pos s r s' ∧ s'.events = E1) :
    Does (fun k _ _ => parseExpr env k e pos) E r E1 := by
  intro s hp hE
  obtain ⟨s', h', hE'⟩ := h s hp hE
  obtain ⟨n, h1⟩ := of_runs h'
  have := parseExpr_keeps 0 e pos _ _ _ (Nat.zero_le _) (h1 n (Nat.le_refl _))
  exact ⟨s', this.1.2.2.trans hp, hE', n, fun k _ _ hk _ _ => h1 k hk⟩

theorem does_of_firstOf {ps : List Nat} {pos : Pos} {r : Option Pos}
    (h : ∀ s, s.predicate = false → s.events = E → ∃ s', FirstOf env ps pos s r s' ∧ s'.events = E1) :
    Does (fun k _ _ => parseOr (parseExpr env k) pos ps) E r E1 := by
  intro s hp hE
  obtain ⟨s', h', hE'⟩ := h s hp hE
  obtain ⟨n, h1⟩ := of_firstOf h'
  have := parseOr_keeps (base := 0) parseExpr_keeps _ _ _ (Nat.zero_le _) (h1 n (Nat.le_refl _))
  exact ⟨s', this.1.2.2.trans hp, hE', n, fun k _ _ hk _ _ => h1 k hk⟩

theorem _root_.Fall.Spec.FirstOf.fail_events {ps : List Nat} {pos : Pos} {r : Option Pos} {s s' : PState}
    (h : FirstOf env ps pos s r s') (hr : r = none) : s'.events = s.events := by
  induction h with
  | none => rfl
  | found => cases hr
  | next h _ ih => exact (ih hr).trans h.fail_events

/-! ## Operators -/

/-- Running an expression that matches one of the tokens. -/
def OneOf (env : Env) (e : Nat) (ts : List NodeType) : Prop :=
  ∀ (pos : Pos) (s : PState), PosOk env pos → s.predicate = false →
    (∃ t ∈ ts, TokenAt env pos.stop pos.cur t ∧ ∃ s', Runs env e pos s (some pos.next) s' ∧
      s'.events = s.events ++ [.token t 1] ∧ s'.predicate = false) ∨
    ((∀ t ∈ ts, ¬ TokenAt env pos.stop pos.cur t) ∧ ∃ s', Runs env e pos s none s' ∧
      s'.events = s.events ∧ s'.predicate = false)

theorem oneOf_of_choice (hE : EnvOk env) {e : Nat} {ts : List NodeType}
    (h : Choice env.grammar e ts) : OneOf env e ts := by
  induction h with
  | @token e ty t he ht =>
    intro pos s hp hs
    by_cases hc : pos.cur = pos.stop
    · refine Or.inr ⟨fun _ _ h => h.1 hc, ticked s, (runs_token he).2 (Or.inl ⟨hc, rfl, rfl⟩), rfl, hs⟩
    · obtain ⟨tk, htk⟩ : ∃ tk, sigToken env pos.cur = some tk := by
        have hlt : pos.cur < env.nonWs.length := by
          have := hp.1; have := hp.2; omega
        obtain ⟨_, _, tk, _, _, h, _⟩ := sigToken_of hE hlt
        exact ⟨tk, h⟩
      have hty : sigTy env pos.cur = some tk.ty := by simp [sigTy, htk]
      by_cases heq : tk.ty = t
      · subst heq
        refine Or.inl ⟨tk.ty, by simp, ⟨hc, hty⟩, emit (ticked s) [.token tk.ty 1],
          (runs_token he).2 (Or.inr ⟨tk.ty, tk.ty, hc, hty, ht, Or.inr ⟨rfl, rfl, rfl⟩⟩), ?_, ?_⟩
        · simp [emit, ticked, hs]
        · simp [emit, ticked, hs]
      · refine Or.inr ⟨?_, ticked s,
          (runs_token he).2 (Or.inr ⟨tk.ty, t, hc, hty, ht, Or.inl ⟨heq, rfl, rfl⟩⟩), rfl, hs⟩
        intro t' ht' hat
        simp only [List.mem_singleton] at ht'
        subst ht'
        have := hat.2
        rw [hty] at this
        exact heq (by simpa using this)
  | and he _ ih =>
    intro pos s hp hs
    rcases ih pos (ticked s) hp hs with ⟨t, ht, hat, s', hr, hev, hp'⟩ | ⟨hno, s', hr, hev, hp'⟩
    · refine Or.inl ⟨t, ht, hat, s', (runs_and he).2 ⟨1, pos.next, s', .step hr .all, Or.inr ⟨by simp, rfl, by simp⟩⟩,
        hev, hp'⟩
    · refine Or.inr ⟨hno, rewind s' s, (runs_and he).2 ⟨0, pos, s', .stuck hr, Or.inl ⟨by simp, rfl, rfl⟩⟩, rfl, hp'⟩
  | @or e alts he _ ih =>
    intro pos s hp hs
    have key : ∀ (xs : List (Nat × List NodeType)), (∀ x ∈ xs, OneOf env x.1 x.2) →
        ∀ s : PState, s.predicate = false →
        (∃ t ∈ xs.flatMap (·.2), TokenAt env pos.stop pos.cur t ∧ ∃ s',
          FirstOf env (xs.map (·.1)) pos s (some pos.next) s' ∧
          s'.events = s.events ++ [.token t 1] ∧ s'.predicate = false) ∨
        ((∀ t ∈ xs.flatMap (·.2), ¬ TokenAt env pos.stop pos.cur t) ∧ ∃ s',
          FirstOf env (xs.map (·.1)) pos s none s' ∧ s'.events = s.events ∧ s'.predicate = false) := by
      intro xs
      induction xs with
      | nil => exact fun _ s hs => Or.inr ⟨by simp, s, .none, rfl, hs⟩
      | cons x xs ihx =>
        intro hx s hs
        rcases hx x (by simp) pos s hp hs with ⟨t, ht, hat, s', hr, hev, hp'⟩ | ⟨hno, s', hr, hev, hp'⟩
        · exact Or.inl ⟨t, by simp [ht], hat, s', .found hr, hev, hp'⟩
        · rcases ihx (fun y hy => hx y (by simp [hy])) s' hp' with
            ⟨t, ht, hat, s2, hr2, hev2, hp2⟩ | ⟨hno2, s2, hr2, hev2, hp2⟩
          · exact Or.inl ⟨t, by
              rw [List.flatMap_cons, List.mem_append]
              exact Or.inr ht, hat, s2, .next hr hr2, by rw [hev2, hev], hp2⟩
          · refine Or.inr ⟨?_, s2, .next hr hr2, by rw [hev2, hev], hp2⟩
            intro t ht
            rw [List.flatMap_cons, List.mem_append] at ht
            rcases ht with ht | ht
            · exact hno t ht
            · exact hno2 t ht
    rcases key alts ih (ticked s) hs with ⟨t, ht, hat, s', hr, hev, hp'⟩ | ⟨hno, s', hr, hev, hp'⟩
    · exact Or.inl ⟨t, ht, hat, s', (runs_or he).2 ⟨s', hr, by simp⟩, hev, hp'⟩
    · exact Or.inr ⟨hno, rewind s' s, (runs_or he).2 ⟨s', hr, by simp⟩, rfl, hp'⟩

variable {stop : Nat}

theorem OneOf.does {e i : Nat} {ts : List NodeType} (h : OneOf env e ts) (hp : PosOk env ⟨i, stop⟩)
    {t : NodeType} (ht : t ∈ ts) (hat : TokenAt env stop i t) :
    Does (fun k _ _ => parseExpr env k e ⟨i, stop⟩) E (some ⟨i + 1, stop⟩) (E ++ [.token t 1]) := by
  refine does_of_runs fun s hs hE => ?_
  rcases h ⟨i, stop⟩ s hp hs with ⟨t', _, hat', s', hr, hev, _⟩ | ⟨hno, _⟩
  · have : t' = t := by
      have h1 := hat.2
      have h2 := hat'.2
      simp only at h2
      rw [h1] at h2
      simpa using h2.symm
    subst this
    exact ⟨s', hr, by rw [hev, hE]⟩
  · exact absurd hat (hno t ht)

theorem OneOf.does_none {e i : Nat} {ts : List NodeType} (h : OneOf env e ts) (hp : PosOk env ⟨i, stop⟩)
    (hno : ∀ t ∈ ts, ¬ TokenAt env stop i t) :
    Does (fun k _ _ => parseExpr env k e ⟨i, stop⟩) E none E := by
  refine does_of_runs fun s hs hE => ?_
  rcases h ⟨i, stop⟩ s hp hs with ⟨t', ht', hat', _⟩ | ⟨_, s', hr, hev, _⟩
  · exact absurd hat' (hno t' ht')
  · exact ⟨s', hr, hev.trans hE⟩

/-! ## Trees -/

end Parser

namespace Spec.OpTree

/-- The items of an operator expression. `k` makes the item of the outermost node. -/
def spine (ty : Nat → NodeType) : OpTree → (NodeType → Items → Items) → Items
  | operand a b, k => k a b
  | pre pf t u, k => k (ty pf.ty) (.tok t 1 (spine ty u fun a b => .node a b .nil))
  | bin ix t l r, k => spine ty l fun a b =>
      .link a b .nil (k (ty ix.ty) (.tok t 1 (spine ty r fun a b => .node a b .nil)))
  | post ix t l, k => spine ty l fun a b => .link a b .nil (k (ty ix.ty) (.tok t 1 .nil))
  | missing ix t l, k => spine ty l fun a b =>
      .link a b .nil (k (ty ix.ty) (.tok t 1 (.node ERROR .nil .nil)))

def items (ty : Nat → NodeType) (T : OpTree) : Items := spine ty T fun a b => .node a b .nil

/-- Type and content of the outermost node, without the linked left operand. -/
def top (ty : Nat → NodeType) : OpTree → NodeType × Items
  | operand a b => (a, b)
  | pre pf t u => (ty pf.ty, .tok t 1 (items ty u))
  | bin ix t _ r => (ty ix.ty, .tok t 1 (items ty r))
  | post ix t _ => (ty ix.ty, .tok t 1 .nil)
  | missing ix t _ => (ty ix.ty, .tok t 1 (.node ERROR .nil .nil))

/-- The events of the outermost node. -/
def topEvents (ty : Nat → NodeType) (T : OpTree) : List Event :=
  .start (T.top ty).1 none :: ((T.top ty).2.encode ++ [.fin])

/-- The same, linked to what follows. -/
def linked (ty : Nat → NodeType) (T : OpTree) : List Event :=
  .start (T.top ty).1 (some ((T.top ty).2.encode.length + 2)) :: ((T.top ty).2.encode ++ [.fin])

/-- The events before the outermost node. -/
def front (ty : Nat → NodeType) : OpTree → List Event
  | operand _ _ => []
  | pre _ _ _ => []
  | bin _ _ l _ => front ty l ++ linked ty l
  | post _ _ l => front ty l ++ linked ty l
  | missing _ _ l => front ty l ++ linked ty l

theorem spine_encode (ty : Nat → NodeType) (T : OpTree) (k : NodeType → Items → Items) :
    (spine ty T k).encode = front ty T ++ (k (T.top ty).1 (T.top ty).2).encode := by
  induction T generalizing k with
  | operand a b => simp [spine, front, top]
  | pre pf t u => simp [spine, front, top, items]
  | bin ix t l r ihl ihr =>
    simp only [spine, ihl, front, top, linked, Items.encode, items]
    simp
  | post ix t l ih =>
    simp only [spine, ih, front, top, linked, Items.encode]
    simp
  | missing ix t l ih =>
    simp only [spine, ih, front, top, linked, Items.encode]
    simp

theorem items_encode (ty : Nat → NodeType) (T : OpTree) :
    (items ty T).encode = front ty T ++ topEvents ty T := by
  rw [items, spine_encode]
  simp [Items.encode, topEvents]

theorem spine_resolve (ty : Nat → NodeType) (T : OpTree) (k : NodeType → Items → Items)
    (K : List Event → List Event)
    (hk : ∀ first a b, Items.resolveWith first (k a b) =
      K (.start a none :: (first ++ Items.resolve b ++ [.fin]))) :
    Items.resolve (spine ty T k) = K (T.events ty) := by
  have hnode : ∀ first (a : NodeType) (b : Items), Items.resolveWith first (.node a b .nil) =
      id (.start a none :: (first ++ Items.resolve b ++ [.fin])) := by
    intro first a b
    simp [Items.resolveWith, Items.resolve]
  induction T generalizing k K with
  | operand a b => simp [spine, events, Items.resolve, hk]
  | pre pf t u ih =>
    have := ih (fun a b => .node a b .nil) id hnode
    simp only [spine, events, Items.resolve, hk, List.nil_append, Items.resolveWith] at this ⊢
    simp [this]
  | bin ix t l r ihl ihr =>
    have hr := ihr (fun a b => .node a b .nil) id hnode
    rw [spine, ihl _ (fun es => K (.start (ty ix.ty) none ::
      (es ++ Items.resolve (.tok t 1 (spine ty r fun a b => .node a b .nil)) ++ [.fin])))]
    · simp only [Items.resolve, Items.resolveWith] at hr ⊢
      simp [hr, events]
    · intro first a b
      simp [Items.resolveWith, hk, Items.resolve]
  | post ix t l ihl =>
    rw [spine, ihl _ (fun es => K (.start (ty ix.ty) none ::
      (es ++ Items.resolve (.tok t 1 .nil) ++ [.fin])))]
    · simp [Items.resolve, Items.resolveWith, events]
    · intro first a b
      simp [Items.resolveWith, hk, Items.resolve]
  | missing ix t l ihl =>
    rw [spine, ihl _ (fun es => K (.start (ty ix.ty) none ::
      (es ++ Items.resolve (.tok t 1 (.node ERROR .nil .nil)) ++ [.fin])))]
    · simp [Items.resolve, Items.resolveWith, events]
    · intro first a b
      simp [Items.resolveWith, hk, Items.resolve]

theorem items_resolve (ty : Nat → NodeType) (T : OpTree) : (items ty T).resolve = T.events ty :=
  spine_resolve ty T _ id (by simp [Items.resolveWith, Items.resolve])

/-- The operands are made of properly linked items. -/
def OperandsWF : OpTree → Prop
  | operand _ b => b.WF
  | pre _ _ u => u.OperandsWF
  | bin _ _ l r => l.OperandsWF ∧ r.OperandsWF
  | post _ _ l => l.OperandsWF
  | missing _ _ l => l.OperandsWF

theorem spine_wf (ty : Nat → NodeType) (T : OpTree) (hT : T.OperandsWF) (k : NodeType → Items → Items)
    (hk : ∀ a b, b.WF → (k a b).WF ∧ (k a b).HeadNode) :
    (spine ty T k).WF ∧ (spine ty T k).HeadNode := by
  have hnode : ∀ (a : NodeType) (b : Items), b.WF → (Items.node a b .nil).WF ∧ (Items.node a b .nil).HeadNode :=
    fun a b hb => ⟨⟨hb, trivial⟩, trivial⟩
  induction T generalizing k with
  | operand a b => exact hk a b hT
  | pre pf t u ih => exact hk _ _ (ih hT _ hnode).1
  | bin ix t l r ihl ihr =>
    refine ihl hT.1 _ fun a b hb => ?_
    obtain ⟨h1, h2⟩ := hk (ty ix.ty) (.tok t 1 (spine ty r fun a b => .node a b .nil)) (ihr hT.2 _ hnode).1
    exact ⟨⟨hb, trivial, h1, h2⟩, trivial⟩
  | post ix t l ihl =>
    refine ihl hT _ fun a b hb => ?_
    obtain ⟨h1, h2⟩ := hk (ty ix.ty) (.tok t 1 .nil) trivial
    exact ⟨⟨hb, trivial, h1, h2⟩, trivial⟩
  | missing ix t l ihl =>
    refine ihl hT _ fun a b hb => ?_
    obtain ⟨h1, h2⟩ := hk (ty ix.ty) (.tok t 1 (.node ERROR .nil .nil)) ⟨trivial, trivial⟩
    exact ⟨⟨hb, trivial, h1, h2⟩, trivial⟩

theorem items_wf (ty : Nat → NodeType) (T : OpTree) (hT : T.OperandsWF) :
    (items ty T).WF ∧ (items ty T).HeadNode :=
  spine_wf ty T hT _ fun _ _ hb => ⟨⟨hb, trivial⟩, trivial⟩

end Spec.OpTree

namespace Parser

variable {env : Env} {table : PrattTable} {toks : Nat → List NodeType} {stop : Nat} {E E' : List Event}

theorem spells_append {i j : Nat} {a b : List Lexeme} (h : Spells env table toks stop i j (a ++ b)) :
    ∃ k, Spells env table toks stop i k a ∧ Spells env table toks stop k j b := by
  induction a generalizing i with
  | nil => exact ⟨i, .nil, h⟩
  | cons x a ih =>
    cases h with
    | operand h1 h2 => obtain ⟨k, h3, h4⟩ := ih h2; exact ⟨k, .operand h1 h3, h4⟩
    | pre h1 h2 h3 h4 h5 => obtain ⟨k, h6, h7⟩ := ih h5; exact ⟨k, .pre h1 h2 h3 h4 h6, h7⟩
    | op h1 h2 h3 h4 h5 => obtain ⟨k, h6, h7⟩ := ih h5; exact ⟨k, .op h1 h2 h3 h4 h6, h7⟩
    | post h1 h2 h3 h4 h5 => obtain ⟨k, h6, h7⟩ := ih h5; exact ⟨k, .post h1 h2 h3 h4 h6, h7⟩
    | missing h1 h2 => obtain ⟨k, h3, h4⟩ := ih h2; exact ⟨k, .missing h1 h3, h4⟩

theorem spells_le {i j : Nat} {w : List Lexeme} (h : Spells env table toks stop i j w) (hi : i ≤ stop) :
    j ≤ stop := by
  induction h with
  | nil => exact hi
  | operand h _ ih => exact ih h.1
  | pre _ _ h _ _ ih => exact ih (by have := h.1; omega)
  | op _ _ _ h _ ih => exact ih (by have := h.1; omega)
  | post _ _ _ h _ ih => exact ih (by have := h.1; omega)
  | missing _ _ ih => exact ih hi

theorem spells_wf {T : OpTree} {i j : Nat} (h : Spells env table toks stop i j T.yield) : T.OperandsWF := by
  induction T generalizing i j with
  | operand a b => cases h with | operand h _ => exact h.2.1
  | pre pf t u ih => cases h with | pre _ _ _ _ h => exact ih h
  | bin ix t l r ihl ihr =>
    obtain ⟨k, h1, h2⟩ := spells_append h
    cases h2 with | op _ _ _ _ h2 => exact ⟨ihl h1, ihr h2⟩
  | post ix t l ih => obtain ⟨k, h1, _⟩ := spells_append h; exact ih h1
  | missing ix t l ih => obtain ⟨k, h1, _⟩ := spells_append h; exact ih h1

/-- `prattGo` from token `i` on. -/
def GoDoes (env : Env) (table : PrattTable) (stop : Nat) (p i : Nat) (E : List Event) (r : Option Pos)
    (E' : List Event) : Prop :=
  Does (fun k l _ => prattGo env (parseExpr env k) table l ⟨i, stop⟩ p) E r E'

/-- `prattLoop` from token `j` on. -/
def LoopDoes (env : Env) (table : PrattTable) (stop : Nat) (p lhs j : Nat) (E : List Event) (r : Option Pos)
    (E' : List Event) : Prop :=
  Does (fun k l q => prattLoop env (parseExpr env k) (prattGo env (parseExpr env k) table l) table p q lhs
    ⟨j, stop⟩) E r E'

theorem go_of_prefix {p i : Nat} {E E1 E' : List Event} {q : Pos} {r : Option Pos}
    (h1 : Does (fun k l _ => prattPrefix env (parseExpr env k) (prattGo env (parseExpr env k) table l) table
      ⟨i, stop⟩) E (some q) E1)
    (h2 : Does (fun k l m => prattLoop env (parseExpr env k) (prattGo env (parseExpr env k) table l) table p m
      E.length q) E1 r E') : GoDoes env table stop p i E r E' := by
  intro s hp hE
  obtain ⟨s1, hp1, hE1, n1, h1⟩ := h1 s hp hE
  obtain ⟨s2, hp2, hE2, n2, h2⟩ := h2 s1 hp1 hE1
  refine ⟨s2, hp2, hE2, max n1 n2 + 1, fun k l q hk hl hq => ?_⟩
  obtain ⟨l, rfl⟩ : ∃ l', l = l' + 1 := ⟨l - 1, by omega⟩
  exact P.bind_ok.2 ⟨E.length, s, by rw [← hE]; rfl, P.bind_ok.2 ⟨_, s1,
    h1 k l l (by omega) (by omega) (by omega), h2 k l l (by omega) (by omega) (by omega)⟩⟩

theorem go_none {p i : Nat} {E : List Event}
    (h1 : Does (fun k l _ => prattPrefix env (parseExpr env k) (prattGo env (parseExpr env k) table l) table
      ⟨i, stop⟩) E none E) : GoDoes env table stop p i E none E := by
  intro s hp hE
  obtain ⟨s1, hp1, hE1, n1, h1⟩ := h1 s hp hE
  refine ⟨s1, hp1, hE1, n1 + 1, fun k l q hk hl hq => ?_⟩
  obtain ⟨l, rfl⟩ : ∃ l', l = l' + 1 := ⟨l - 1, by omega⟩
  exact P.bind_ok.2 ⟨E.length, s, by rw [← hE]; rfl, P.bind_ok.2 ⟨_, s1,
    h1 k l l (by omega) (by omega) (by omega), rfl⟩⟩

theorem prefix_operand {i : Nat} {E E1 : List Event} {q : Pos}
    {go : Nat → Nat → Pos → Nat → P (Option Pos)}
    (h : Does (fun k _ _ => parseOr (parseExpr env k) ⟨i, stop⟩ table.atoms) E (some q) E1) :
    Does (fun k l _ => prattPrefix env (parseExpr env k) (go k l) table ⟨i, stop⟩) E (some q) E1 :=
  Does.bind h Does.pure

theorem prefix_operator {i : Nat} {E E1 : List Event} {r : Option Pos}
    {go : Nat → Nat → Pos → Nat → P (Option Pos)} (h : NoOperandAt env table stop i)
    (h' : Does (fun k l _ => prattPrefixes env (parseExpr env k) (go k l) ⟨i, stop⟩ table.prefixes) E r E1) :
    Does (fun k l _ => prattPrefix env (parseExpr env k) (go k l) table ⟨i, stop⟩) E r E1 := by
  refine Does.bind (b := none) (E1 := E) (does_of_firstOf fun s hs hE => ?_) h'
  obtain ⟨s', h⟩ := h s hs
  exact ⟨s', h, (h.fail_events rfl).trans hE⟩

theorem loop_step {p lhs lhs' j : Nat} {E E1 E' : List Event} {q : Pos} {r : Option Pos}
    (h1 : Does (fun k l _ => prattInfixes env (parseExpr env k) (prattGo env (parseExpr env k) table l) lhs
      ⟨j, stop⟩ (table.infixesFrom p)) E (some (lhs', q)) E1)
    (h2 : Does (fun k l m => prattLoop env (parseExpr env k) (prattGo env (parseExpr env k) table l) table p m
      lhs' q) E1 r E') : LoopDoes env table stop p lhs j E r E' := by
  intro s hp hE
  obtain ⟨s1, hp1, hE1, n1, h1⟩ := h1 s hp hE
  obtain ⟨s2, hp2, hE2, n2, h2⟩ := h2 s1 hp1 hE1
  refine ⟨s2, hp2, hE2, max n1 n2 + 1, fun k l q hk hl hq => ?_⟩
  obtain ⟨q, rfl⟩ : ∃ q', q = q' + 1 := ⟨q - 1, by omega⟩
  exact P.bind_ok.2 ⟨_, s1, h1 k l q (by omega) (by omega) (by omega),
    h2 k l q (by omega) (by omega) (by omega)⟩

theorem loop_stop {p lhs j : Nat} {E : List Event}
    (h1 : Does (fun k l _ => prattInfixes env (parseExpr env k) (prattGo env (parseExpr env k) table l) lhs
      ⟨j, stop⟩ (table.infixesFrom p)) E none E) : LoopDoes env table stop p lhs j E (some ⟨j, stop⟩) E := by
  intro s hp hE
  obtain ⟨s1, hp1, hE1, n1, h1⟩ := h1 s hp hE
  refine ⟨s1, hp1, hE1, n1 + 1, fun k l q hk hl hq => ?_⟩
  obtain ⟨q, rfl⟩ : ∃ q', q = q' + 1 := ⟨q - 1, by omega⟩
  exact P.bind_ok.2 ⟨_, s1, h1 k l q (by omega) (by omega) (by omega), rfl⟩

variable (hE : EnvOk env) (hT : TokenTable env.grammar table toks) (hstop : stop ≤ env.nonWs.length)

include hT in
theorem prefix_type {pf : Prefix} (h : pf ∈ table.prefixes) :
    env.grammar.nodeTypes[pf.ty]? = some (typeOf env.grammar pf.ty) := by
  have := hT.prefixTy pf h
  unfold typeOf
  cases h : env.grammar.nodeTypes[pf.ty]? with
  | none => simp [h] at this
  | some t => rfl

include hT in
theorem infix_type {ix : Infix} (h : ix ∈ table.infixes) :
    env.grammar.nodeTypes[ix.ty]? = some (typeOf env.grammar ix.ty) := by
  have := hT.infixTy ix h
  unfold typeOf
  cases h : env.grammar.nodeTypes[ix.ty]? with
  | none => simp [h] at this
  | some t => rfl

include hE hT hstop

/-- No operator matches. -/
theorem infixes_none {lhs j : Nat} (hj : j ≤ stop) {ixs : List Infix}
    (hix : ∀ ix ∈ ixs, ix ∈ table.infixes ∧ ∀ t ∈ toks ix.op, ¬ TokenAt env stop j t) :
    Does (fun k l _ => prattInfixes env (parseExpr env k) (prattGo env (parseExpr env k) table l) lhs
      ⟨j, stop⟩ ixs) E none E := by
  induction ixs with
  | nil => exact Does.pure
  | cons ix ixs ih =>
    obtain ⟨h1, h2⟩ := hix ix (by simp)
    refine Does.bind does_mark (Does.bind (does_start (infix_type hT h1)) (Does.bind
      ((oneOf_of_choice hE (hT.infixTok ix h1)).does_none ⟨hj, hstop⟩ h2) (Does.bind does_rollback
        (ih fun ix h => hix ix (by simp [h])))))

/-- The operator of the token matches. -/
theorem infixes_found {j : Nat} (hj : j ≤ stop) {ix : Infix} {t : NodeType} (hix : ix ∈ table.infixes)
    (ht : t ∈ toks ix.op) (hat : TokenAt env stop j t) {ty : NodeType} {tl rhs : List Event} {q : Pos}
    {ixs : List Infix} (hixs : ∀ ix ∈ ixs, ix ∈ table.infixes) (hmem : ix ∈ ixs)
    (hrhs : Does (fun k l _ => prattRhs (prattGo env (parseExpr env k) table l) ix ⟨j + 1, stop⟩)
      (E ++ .start ty (some (tl.length + 1)) :: tl ++ [.start (typeOf env.grammar ix.ty) none, .token t 1]) q
      (E ++ .start ty (some (tl.length + 1)) :: tl ++ [.start (typeOf env.grammar ix.ty) none, .token t 1] ++ rhs)) :
    Does (fun k l _ => prattInfixes env (parseExpr env k) (prattGo env (parseExpr env k) table l) E.length
      ⟨j, stop⟩ ixs) (E ++ .start ty none :: tl) (some ((E ++ .start ty none :: tl).length, q))
      (E ++ .start ty (some (tl.length + 1)) :: tl ++
        .start (typeOf env.grammar ix.ty) none :: .token t 1 :: (rhs ++ [.fin])) := by
  induction ixs with
  | nil => cases hmem
  | cons ix' ixs ih =>
    have h1 := hixs ix' (by simp)
    by_cases heq : ix' = ix
    · subst heq
      have hty := infix_type hT hix
      refine Does.bind does_mark (Does.bind (does_start hty) (Does.bind
        ((oneOf_of_choice hE (hT.infixTok _ h1)).does ⟨hj, hstop⟩ ht hat) ?_))
      dsimp only
      have hfp := @does_forwardParent E ty none tl [.start (typeOf env.grammar ix'.ty) none, .token t 1]
      rw [show (E ++ .start ty none :: tl) ++ [.start (typeOf env.grammar ix'.ty) none] ++ [Event.token t 1] =
        E ++ .start ty none :: tl ++ [.start (typeOf env.grammar ix'.ty) none, .token t 1] by simp]
      refine Does.bind hfp (Does.bind hrhs (Does.bind (does_lift hty) (Does.bind does_setPrev ?_)))
      rw [show (E ++ .start ty (some (tl.length + 1)) :: tl ++
          .start (typeOf env.grammar ix'.ty) none :: .token t 1 :: (rhs ++ [.fin])) =
        (E ++ .start ty (some (tl.length + 1)) :: tl ++ [.start (typeOf env.grammar ix'.ty) none, .token t 1] ++
          rhs) ++ [.fin] by simp]
      exact Does.bind does_event Does.pure
    · refine Does.bind does_mark (Does.bind (does_start (infix_type hT h1)) (Does.bind
        ((oneOf_of_choice hE (hT.infixTok ix' h1)).does_none ⟨hj, hstop⟩ ?_) (Does.bind does_rollback
          (ih (fun ix h => hixs ix (by simp [h])) ?_))))
      · intro t' ht' hat'
        have : t' = t := by
          have h2 := hat'.2
          rw [hat.2] at h2
          simpa using h2.symm
        subst this
        exact heq (hT.infixes _ h1 _ hix _ ht' ht)
      · rcases List.mem_cons.1 hmem with h | h
        · exact absurd h.symm heq
        · exact h

/-- The prefix operator of the token matches and has an operand. -/
theorem prefixes_found {i : Nat} (hi : i ≤ stop) {pf : Prefix} {t : NodeType} (hpf : pf ∈ table.prefixes)
    (ht : t ∈ toks pf.op) (hat : TokenAt env stop i t) {q : Pos} {arg : List Event}
    {pfs : List Prefix} (hpfs : ∀ pf ∈ pfs, pf ∈ table.prefixes) (hmem : pf ∈ pfs)
    (hgo : GoDoes env table stop pf.priority (i + 1)
      (E ++ [.start (typeOf env.grammar pf.ty) none, .token t 1]) (some q)
      (E ++ [.start (typeOf env.grammar pf.ty) none, .token t 1] ++ arg)) :
    Does (fun k l _ => prattPrefixes env (parseExpr env k) (prattGo env (parseExpr env k) table l)
      ⟨i, stop⟩ pfs) E (some q)
      (E ++ .start (typeOf env.grammar pf.ty) none :: .token t 1 :: (arg ++ [.fin])) := by
  induction pfs with
  | nil => cases hmem
  | cons pf' pfs ih =>
    have h1 := hpfs pf' (by simp)
    by_cases heq : pf' = pf
    · subst heq
      have hty := prefix_type hT hpf
      have hop := (oneOf_of_choice hE (hT.prefixTok _ h1)).does
        (E := E ++ [.start (typeOf env.grammar pf'.ty) none]) ⟨hi, hstop⟩ ht hat
      rw [List.append_assoc] at hop
      refine Does.bind (does_start hty) (Does.bind (Does.bind hop hgo) ?_)
      dsimp only
      refine Does.bind (does_lift hty) (Does.bind does_setPrev ?_)
      rw [show E ++ .start (typeOf env.grammar pf'.ty) none :: .token t 1 :: (arg ++ [.fin]) =
        (E ++ [.start (typeOf env.grammar pf'.ty) none, .token t 1] ++ arg) ++ [.fin] by simp]
      exact Does.bind does_event Does.pure
    · refine Does.bind (does_start (prefix_type hT h1)) (Does.bind (Does.bind
        ((oneOf_of_choice hE (hT.prefixTok pf' h1)).does_none ⟨hi, hstop⟩ ?_) Does.pure)
          (Does.bind does_rollback (ih (fun pf h => hpfs pf (by simp [h])) ?_)))
      · intro t' ht' hat'
        have : t' = t := by
          have h2 := hat'.2
          rw [hat.2] at h2
          simpa using h2.symm
        subst this
        exact heq (hT.prefixes _ h1 _ hpf _ ht' ht)
      · rcases List.mem_cons.1 hmem with h | h
        · exact absurd h.symm heq
        · exact h

/-- No prefix operator with an operand. -/
theorem prefixes_none {i : Nat} (hi : i ≤ stop) {pfs : List Prefix} (hpfs : ∀ pf ∈ pfs, pf ∈ table.prefixes)
    (hno : ∀ pf ∈ pfs, ∀ t ∈ toks pf.op, TokenAt env stop i t →
      ∀ E, GoDoes env table stop pf.priority (i + 1) E none E) :
    Does (fun k l _ => prattPrefixes env (parseExpr env k) (prattGo env (parseExpr env k) table l)
      ⟨i, stop⟩ pfs) E none E := by
  induction pfs with
  | nil => exact Does.pure
  | cons pf pfs ih =>
    have h1 := hpfs pf (by simp)
    have ih := ih (fun pf h => hpfs pf (by simp [h])) (fun pf h => hno pf (by simp [h]))
    by_cases hat : ∃ t ∈ toks pf.op, TokenAt env stop i t
    · obtain ⟨t, ht, hat⟩ := hat
      have hop := (oneOf_of_choice hE (hT.prefixTok _ h1)).does
        (E := E ++ [.start (typeOf env.grammar pf.ty) none]) ⟨hi, hstop⟩ ht hat
      rw [List.append_assoc] at hop
      exact Does.bind (does_start (prefix_type hT h1)) (Does.bind (Does.bind hop
        (hno pf (by simp) t ht hat _)) (Does.bind does_rollback ih))
    · refine Does.bind (does_start (prefix_type hT h1)) (Does.bind (Does.bind
        ((oneOf_of_choice hE (hT.prefixTok pf h1)).does_none ⟨hi, hstop⟩ ?_) Does.pure)
          (Does.bind does_rollback ih))
      exact fun t ht h => hat ⟨t, ht, h⟩

theorem go_nothing {p i : Nat} (hi : i ≤ stop) (h : NothingAt env table toks stop i) :
    GoDoes env table stop p i E none E := by
  induction h generalizing p E with
  | none h1 h2 =>
    exact go_none (prefix_operator h1 (prefixes_none hE hT hstop hi (fun _ h => h)
      fun pf hpf t ht hat => absurd hat (h2 pf hpf t ht)))
  | pre h1 hpf ht hat _ ih =>
    exact go_none (prefix_operator h1 (prefixes_none hE hT hstop hi (fun _ h => h)
      fun pf hpf t ht hat' E => ih (by have := hat.1; omega)))

/-- The loop ends where no operator of enough priority follows. -/
theorem loop_end {p lhs j : Nat} (hj : j ≤ stop)
    (h : ∀ ix ∈ table.infixes, ∀ t ∈ toks ix.op, TokenAt env stop j t → ix.priority < p) :
    LoopDoes env table stop p lhs j E (some ⟨j, stop⟩) E := by
  refine loop_stop (infixes_none hE hT hstop hj ?_)
  intro ix hix
  simp only [PrattTable.infixesFrom, List.mem_filter, decide_eq_true_eq] at hix
  refine ⟨hix.1, fun t ht hat => ?_⟩
  have := h ix hix.1 t ht hat
  omega

/-- What follows is not claimed by operators at the right edge of the expression. -/
def EndsAt (env : Env) (table : PrattTable) (toks : Nat → List NodeType) (stop j : Nat) (T : OpTree) : Prop :=
  ∀ ix ∈ table.infixes, ∀ t ∈ toks ix.op, TokenAt env stop j t → T.heldBy ix.priority

omit hE hstop in
theorem endsAt_op {j : Nat} {T : OpTree} {ix : Infix} {t : NodeType} (hix : ix ∈ table.infixes)
    (ht : t ∈ toks ix.op) (hat : TokenAt env stop j t) (h : T.heldBy ix.priority) :
    EndsAt env table toks stop j T := by
  intro ix' hix' t' ht' hat'
  have : t' = t := by
    have h2 := hat'.2
    rw [hat.2] at h2
    simpa using h2.symm
  subst this
  rw [hT.infixes _ hix' _ hix _ ht' ht]
  exact h

theorem go_tree {T : OpTree} {p i j : Nat} {o : Option Pos} (hg : T.Grouped) (ha : T.above p) (hi : i ≤ stop)
    (hw : Spells env table toks stop i j T.yield) (he : EndsAt env table toks stop j T)
    (h : LoopDoes env table stop p (E ++ T.front (typeOf env.grammar)).length j
      (E ++ T.front (typeOf env.grammar) ++ T.topEvents (typeOf env.grammar)) o E') :
    GoDoes env table stop p i E o E' := by
  induction T generalizing p i j E o E' with
  | operand a b =>
    cases hw with
    | operand h1 h2 =>
      cases h2
      refine go_of_prefix (E1 := E ++ OpTree.topEvents (typeOf env.grammar) (.operand a b)) (q := ⟨j, stop⟩)
        (prefix_operand (does_of_firstOf fun s hs hE => ?_)) ?_
      · obtain ⟨s', h, h'⟩ := h1.2.2 s hs
        exact ⟨s', h, by rw [h', hE]; rfl⟩
      · simpa [OpTree.front, LoopDoes] using h
  | pre pf t u ih =>
    cases hw with
    | pre h1 h2 h3 h4 h5 =>
      have hi' : i + 1 ≤ stop := by have := h3.1; omega
      have hj := spells_le h5 hi'
      refine go_of_prefix (q := ⟨j, stop⟩)
        (prefix_operator h4 (prefixes_found hE hT hstop hi h1 h2 h3
            (arg := u.front (typeOf env.grammar) ++ u.topEvents (typeOf env.grammar)) (fun _ h => h) h1 ?_)) ?_
      · refine ih hg.2 hg.1 hi' h5 (fun ix hix t ht hat => (he ix hix t ht hat).2) ?_
        rw [← List.append_assoc]
        exact loop_end hE hT hstop hj fun ix hix t ht hat => (he ix hix t ht hat).1
      · simpa [OpTree.front, LoopDoes, OpTree.topEvents, OpTree.top, Items.encode, OpTree.items_encode] using h
  | bin ix t l r ihl ihr =>
    obtain ⟨k, hl, hr⟩ := spells_append hw
    obtain ⟨g1, g2, g3, g4⟩ := hg
    have hk := spells_le hl hi
    cases hr with
    | op h1 h2 h3 h4 h5 =>
      have hk' : k + 1 ≤ stop := by have := h4.1; omega
      have hj := spells_le h5 hk'
      refine ihl g3 ha.2 hi hl (endsAt_op hT h1 h3 h4 g1) (loop_step (q := ⟨j, stop⟩)
        (infixes_found hE hT hstop hk h1 h3 h4
          (rhs := r.front (typeOf env.grammar) ++ r.topEvents (typeOf env.grammar)) ?_ ?_ ?_) ?_)
      · intro ix hix
        exact (List.mem_filter.1 hix).1
      · simpa [PrattTable.infixesFrom, h1] using ha.1
      · unfold prattRhs
        simp only [if_pos h2]
        refine Does.bind (b := some ⟨j, stop⟩) (ihr g4 g2 hk' h5 (fun ix hix t ht hat => (he ix hix t ht hat).2) ?_)
          Does.pure
        rw [← List.append_assoc]
        refine loop_end hE hT hstop hj fun ix' hix t ht hat => ?_
        have := (he ix' hix t ht hat).1
        omega
      · simpa [OpTree.front, LoopDoes, OpTree.topEvents, OpTree.linked, OpTree.top, Items.encode,
          OpTree.items_encode, Nat.add_assoc] using h
  | post ix t l ih =>
    obtain ⟨k, hl, hr⟩ := spells_append hw
    have hk := spells_le hl hi
    cases hr with
    | post h1 h2 h3 h4 h5 =>
      cases h5
      refine ih hg.2 ha.2 hi hl (endsAt_op hT h1 h3 h4 hg.1) (loop_step (q := ⟨k + 1, stop⟩)
        (infixes_found hE hT hstop hk h1 h3 h4 (rhs := []) ?_ ?_ ?_) ?_)
      · intro ix hix
        exact (List.mem_filter.1 hix).1
      · simpa [PrattTable.infixesFrom, h1] using ha.1
      · unfold prattRhs
        simp only [h2, Bool.false_eq_true, if_false, List.append_nil]
        exact Does.pure
      · simpa [OpTree.front, LoopDoes, OpTree.topEvents, OpTree.linked, OpTree.top, Items.encode,
          OpTree.items_encode, Nat.add_assoc] using h
  | missing ix t l ih =>
    obtain ⟨k, hl, hr⟩ := spells_append hw
    have hk := spells_le hl hi
    cases hr with
    | op h1 h2 h3 h4 h5 =>
      have hk' : k + 1 ≤ stop := by have := h4.1; omega
      cases h5 with
      | missing h5 h6 =>
        cases h6
        refine ih hg.2 ha.2 hi hl (endsAt_op hT h1 h3 h4 hg.1) (loop_step (q := ⟨k + 1, stop⟩)
          (infixes_found hE hT hstop hk h1 h3 h4 (rhs := [.start ERROR none, .fin]) ?_ ?_ ?_) ?_)
        · intro ix hix
          exact (List.mem_filter.1 hix).1
        · simpa [PrattTable.infixesFrom, h1] using ha.1
        · unfold prattRhs
          simp only [if_pos h2]
          refine Does.bind (b := none) (go_nothing hE hT hstop hk' h5) ?_
          dsimp only
          rw [show [Event.start ERROR none, Event.fin] = [Event.start ERROR none] ++ [Event.fin] from rfl,
            ← List.append_assoc _ [Event.start ERROR none]]
          exact Does.bind does_startError (Does.bind does_event Does.pure)
        · simpa [OpTree.front, LoopDoes, OpTree.topEvents, OpTree.linked, OpTree.top, Items.encode,
            OpTree.items_encode, Nat.add_assoc] using h

/-- Running the operator expression as a whole. -/
theorem runs_pratt {e : Nat} (he : env.grammar.rules[e]? = some (.pratt table)) {T : OpTree} {i j : Nat}
    (hg : T.Grouped) (hi : i ≤ stop) (hw : Spells env table toks stop i j T.yield)
    (hend : NoOpAt env table toks stop j) (s : PState) (hs : s.predicate = false) :
    ∃ s', Runs env e ⟨i, stop⟩ s (some ⟨j, stop⟩) s' ∧
      s'.events = s.events ++ (T.items (typeOf env.grammar)).encode := by
  have hj := spells_le hw hi
  have hno : ∀ ix ∈ table.infixes, ∀ t ∈ toks ix.op, ¬ TokenAt env stop j t := hend
  obtain ⟨s', _, hev, n, h⟩ := go_tree (E := s.events) (o := some ⟨j, stop⟩) hE hT hstop hg T.above_zero hi hw
    (fun ix hix t ht hat => absurd hat (hno ix hix t ht))
    (loop_end hE hT hstop hj fun ix hix t ht hat => absurd hat (hno ix hix t ht)) (ticked s) hs rfl
  refine ⟨s', runs_iff.2 ⟨n, s', ?_, by simp⟩, ?_⟩
  · rw [inner_of he]
    exact h n n n (Nat.le_refl _) (Nat.le_refl _) (Nat.le_refl _)
  · rw [hev, OpTree.items_encode, List.append_assoc]

theorem runs_pratt_nothing {e : Nat} (he : env.grammar.rules[e]? = some (.pratt table)) {i : Nat}
    (hi : i ≤ stop) (h : NothingAt env table toks stop i) (s : PState) (hs : s.predicate = false) :
    ∃ s', Runs env e ⟨i, stop⟩ s none s' := by
  obtain ⟨s', _, hev, n, h⟩ := go_nothing (p := 0) (E := s.events) hE hT hstop hi h (ticked s) hs rfl
  refine ⟨rewind s' s, runs_iff.2 ⟨n, s', ?_, by simp⟩⟩
  rw [inner_of he]
  exact h n n n (Nat.le_refl _) (Nat.le_refl _) (Nat.le_refl _)

end Parser

end Fall
