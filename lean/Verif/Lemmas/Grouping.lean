import Verif.Spec.Pratt

/-!
Every operator expression has exactly one conventional grouping.
-/

namespace Fall

open Spec

namespace Spec.OpTree

/-! ## At most one grouping -/

/-- Reading an expression from left to right, with an operand `some l` read before. -/
inductive Group : Option OpTree → Nat → List Lexeme → OpTree → List Lexeme → Prop
  | operand : Group (some (.operand a b)) p w T w' → Group none p (.operand a b :: w) T w'
  | pre : Group none pf.priority w u w1 → Group (some (.pre pf t u)) p w1 T w' →
      Group none p (.pre pf t :: w) T w'
  | stop : (∀ ix t w', w = .op ix t :: w' ∨ w = .post ix t :: w' → ix.priority < p) → Group (some l) p w l w
  | bin : p ≤ ix.priority → Group none (ix.priority + 1) w r w1 → Group (some (.bin ix t l r)) p w1 T w' →
      Group (some l) p (.op ix t :: w) T w'
  | post : p ≤ ix.priority → Group (some (.post ix t l)) p w T w' → Group (some l) p (.post ix t :: w) T w'
  | missing : p ≤ ix.priority → Group (some (.missing ix t l)) p w T w' →
      Group (some l) p (.op ix t :: .missing :: w) T w'

theorem Group.det {o : Option OpTree} {p : Nat} {w w1 w2 : List Lexeme} {T1 T2 : OpTree}
    (h1 : Group o p w T1 w1) (h2 : Group o p w T2 w2) : T1 = T2 ∧ w1 = w2 := by
  induction h1 generalizing T2 w2 with
  | operand _ ih => cases h2 with | operand h => exact ih h
  | pre _ _ ih1 ih2 =>
    cases h2 with
    | pre h h' =>
      obtain ⟨rfl, rfl⟩ := ih1 h
      exact ih2 h'
  | stop hs =>
    cases h2 with
    | stop => exact ⟨rfl, rfl⟩
    | bin hp => exact absurd (hs _ _ _ (Or.inl rfl)) (by omega)
    | post hp => exact absurd (hs _ _ _ (Or.inr rfl)) (by omega)
    | missing hp => exact absurd (hs _ _ _ (Or.inl rfl)) (by omega)
  | bin hp h1 _ ih1 ih2 =>
    cases h2 with
    | stop hs => exact absurd (hs _ _ _ (Or.inl rfl)) (by omega)
    | bin _ h h' =>
      obtain ⟨rfl, rfl⟩ := ih1 h
      exact ih2 h'
    | missing => cases h1
  | post hp _ ih =>
    cases h2 with
    | stop hs => exact absurd (hs _ _ _ (Or.inr rfl)) (by omega)
    | post _ h => exact ih h
  | missing hp _ ih =>
    cases h2 with
    | stop hs => exact absurd (hs _ _ _ (Or.inl rfl)) (by omega)
    | bin _ h => cases h
    | missing _ h => exact ih h

/-- What follows is not claimed by operators at the right edge of the expression. -/
def Ends (w : List Lexeme) (T : OpTree) : Prop :=
  ∀ ix t w', w = .op ix t :: w' ∨ w = .post ix t :: w' → T.heldBy ix.priority

theorem group_of {T T' : OpTree} {p : Nat} {w w' : List Lexeme} (hg : T.Grouped) (ha : T.above p)
    (he : Ends w T) (h : Group (some T) p w T' w') : Group none p (T.yield ++ w) T' w' := by
  induction T generalizing p w T' w' with
  | operand ty body => exact .operand h
  | pre pf t u ih =>
    refine .pre (w1 := w) (ih hg.2 hg.1 (fun ix t w' hw => (he ix t w' hw).2) (.stop ?_)) h
    exact fun ix t w' hw => (he ix t w' hw).1
  | bin ix t l r ihl ihr =>
    obtain ⟨h1, h2, h3, h4⟩ := hg
    simp only [yield, List.append_assoc, List.cons_append]
    refine ihl h3 ha.2 ?_ (.bin ha.1 (w1 := w) (ihr h4 h2 (fun ix t w' hw => (he ix t w' hw).2) (.stop ?_)) h)
    · rintro ix' t' w' (hw | hw)
      · cases hw; exact h1
      · cases hw
    · intro ix' t' w' hw
      have := (he ix' t' w' hw).1
      omega
  | post ix t l ih =>
    simp only [yield, List.append_assoc, List.cons_append, List.nil_append]
    refine ih hg.2 ha.2 ?_ (.post ha.1 h)
    rintro ix' t' w' (hw | hw)
    · cases hw
    · cases hw; exact hg.1
  | missing ix t l ih =>
    simp only [yield, List.append_assoc, List.cons_append, List.nil_append]
    refine ih hg.2 ha.2 ?_ (.missing ha.1 h)
    rintro ix' t' w' (hw | hw)
    · cases hw; exact hg.1
    · cases hw

theorem above_zero (T : OpTree) : T.above 0 := by
  induction T <;> simp_all [above]

theorem grouped_unique {T1 T2 : OpTree} (h1 : T1.Grouped) (h2 : T2.Grouped) (h : T1.yield = T2.yield) :
    T1 = T2 := by
  have key : ∀ T : OpTree, T.Grouped → Group none 0 T.yield T [] := by
    intro T hT
    have := group_of (w := []) hT T.above_zero (by simp [Ends]) (.stop (by simp))
    simpa using this
  have := key T2 h2
  rw [← h] at this
  exact ((key T1 h1).det this).1

/-! ## A grouping -/

/-- Prefix operators and an operand. -/
def prim (pfs : List (Prefix × NodeType)) (a : NodeType) (b : Items) : OpTree :=
  pfs.foldr (fun x u => .pre x.1 x.2 u) (.operand a b)

/-- What comes after an operand. -/
inductive Step where
  | bin (ix : Infix) (t : NodeType) (pfs : List (Prefix × NodeType)) (a : NodeType) (b : Items)
  | post (ix : Infix) (t : NodeType)
  | missing (ix : Infix) (t : NodeType)

def Step.ix : Step → Infix
  | bin ix _ _ _ _ => ix
  | post ix _ => ix
  | missing ix _ => ix

def Step.on (l : OpTree) : Step → OpTree
  | bin ix t pfs a b => .bin ix t l (prim pfs a b)
  | post ix t => .post ix t l
  | missing ix t => .missing ix t l

def Step.yield : Step → List Lexeme
  | bin ix t pfs a b => .op ix t :: (prim pfs a b).yield
  | post ix t => [.post ix t]
  | missing ix t => [.op ix t, .missing]

theorem Step.on_yield (l : OpTree) (st : Step) : (st.on l).yield = l.yield ++ st.yield := by
  cases st <;> rfl

/-- The expression as one operand after the other. -/
structure Lin where
  pfs : List (Prefix × NodeType)
  a : NodeType
  b : Items
  steps : List Step

def lin : OpTree → Lin
  | operand a b => ⟨[], a, b, []⟩
  | pre pf t u => { u.lin with pfs := (pf, t) :: u.lin.pfs }
  | bin ix t l r =>
    { l.lin with steps := l.lin.steps ++ .bin ix t r.lin.pfs r.lin.a r.lin.b :: r.lin.steps }
  | post ix t l => { l.lin with steps := l.lin.steps ++ [.post ix t] }
  | missing ix t l => { l.lin with steps := l.lin.steps ++ [.missing ix t] }

def Lin.yield (x : Lin) : List Lexeme := (prim x.pfs x.a x.b).yield ++ x.steps.flatMap Step.yield

theorem lin_yield (T : OpTree) : T.lin.yield = T.yield := by
  induction T with
  | operand a b => rfl
  | pre pf t u ih =>
    simp only [yield, ← ih]
    rfl
  | bin ix t l r ihl ihr =>
    simp only [yield, ← ihl, ← ihr]
    simp [Lin.yield, lin, Step.yield]
  | post ix t l ih =>
    simp only [yield, ← ih]
    simp [Lin.yield, lin, Step.yield]
  | missing ix t l ih =>
    simp only [yield, ← ih]
    simp [Lin.yield, lin, Step.yield]

/-- Adding an operator at the right end. -/
def place (st : Step) : OpTree → OpTree
  | pre pf t u =>
    if (pre pf t u).heldBy st.ix.priority then st.on (pre pf t u) else pre pf t (place st u)
  | bin ix t l r =>
    if (bin ix t l r).heldBy st.ix.priority then st.on (bin ix t l r) else bin ix t l (place st r)
  | T => st.on T

theorem prim_grouped (pfs : List (Prefix × NodeType)) (a : NodeType) (b : Items) :
    (prim pfs a b).Grouped ∧ ∀ p, (prim pfs a b).above p := by
  induction pfs with
  | nil => exact ⟨trivial, fun _ => trivial⟩
  | cons x pfs ih => exact ⟨⟨ih.2 _, ih.1⟩, fun _ => trivial⟩

theorem on_grouped {l : OpTree} {st : Step} (hl : l.Grouped) (hh : l.heldBy st.ix.priority) :
    (st.on l).Grouped := by
  cases st with
  | bin ix t pfs a b => exact ⟨hh, (prim_grouped _ _ _).2 _, hl, (prim_grouped _ _ _).1⟩
  | post ix t => exact ⟨hh, hl⟩
  | missing ix t => exact ⟨hh, hl⟩

theorem on_above {l : OpTree} {st : Step} {p : Nat} (hl : l.above p) (hp : p ≤ st.ix.priority) :
    (st.on l).above p := by
  cases st <;> exact ⟨hp, hl⟩

theorem place_above {T : OpTree} {st : Step} {p : Nat} (hT : T.above p)
    (hp : T.heldBy st.ix.priority → p ≤ st.ix.priority) : (place st T).above p := by
  cases T with
  | operand a b => exact on_above hT (hp trivial)
  | pre pf t u =>
    unfold place
    split
    · exact on_above hT (hp ‹_›)
    · trivial
  | bin ix t l r =>
    unfold place
    split
    · exact on_above hT (hp ‹_›)
    · exact hT
  | post ix t l => exact on_above hT (hp trivial)
  | missing ix t l => exact on_above hT (hp trivial)

theorem place_grouped {T : OpTree} {st : Step} (hT : T.Grouped) :
    (place st T).Grouped ∧ (place st T).yield = T.yield ++ st.yield := by
  induction T with
  | operand a b => exact ⟨on_grouped hT trivial, Step.on_yield _ _⟩
  | pre pf t u ih =>
    unfold place
    split
    · exact ⟨on_grouped hT ‹_›, Step.on_yield _ _⟩
    · rename_i hh
      obtain ⟨h1, h2⟩ := ih hT.2
      refine ⟨⟨place_above hT.1 fun hu => ?_, h1⟩, by simp [yield, h2]⟩
      simp only [heldBy, hu, and_true] at hh
      omega
  | bin ix t l r _ ih =>
    unfold place
    obtain ⟨g1, g2, g3, g4⟩ := hT
    split
    · exact ⟨on_grouped ⟨g1, g2, g3, g4⟩ ‹_›, Step.on_yield _ _⟩
    · rename_i hh
      obtain ⟨h1, h2⟩ := ih g4
      refine ⟨⟨g1, place_above g2 fun hu => ?_, g3, h1⟩, by simp [yield, h2]⟩
      simp only [heldBy, hu, and_true] at hh
      omega
  | post ix t l => exact ⟨on_grouped hT trivial, Step.on_yield _ _⟩
  | missing ix t l => exact ⟨on_grouped hT trivial, Step.on_yield _ _⟩

theorem exists_grouped (T0 : OpTree) : ∃ T : OpTree, T.Grouped ∧ T.yield = T0.yield := by
  have key : ∀ (steps : List Step) (T : OpTree), T.Grouped →
      ∃ T' : OpTree, T'.Grouped ∧ T'.yield = T.yield ++ steps.flatMap Step.yield := by
    intro steps
    induction steps with
    | nil => exact fun T hT => ⟨T, hT, by simp⟩
    | cons st steps ih =>
      intro T hT
      obtain ⟨h1, h2⟩ := place_grouped (st := st) hT
      obtain ⟨T', h3, h4⟩ := ih _ h1
      exact ⟨T', h3, by simp [h4, h2]⟩
  obtain ⟨T, h1, h2⟩ := key T0.lin.steps (prim T0.lin.pfs T0.lin.a T0.lin.b) (prim_grouped _ _ _).1
  exact ⟨T, h1, by rw [h2, ← lin_yield T0]; rfl⟩

end Spec.OpTree

end Fall
