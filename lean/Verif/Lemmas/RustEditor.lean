import Verif.Lemmas.FallEditor
import Verif.Lemmas.FallExtract
import Verif.Lemmas.GenerateModule
import Verif.Props.Tree
import Verif.Spec.RustEditor

/-!
The editor features for Rust: the leaf left of the caret, the nodes around it, names and children.
-/

namespace Fall
open Spec

section
variable {f : File UInt8} (hf : ConsistentFile f)
include hf

theorem leftLeaf {offset : Nat} (h : offset ≤ f.text.length) :
    ∃ res, f.findLeafAtOffset 0 offset = some res ∧
      (∀ l, res.leftBiased = some l ↔ Leftmost f (LeafAt f offset) l) ∧
      ∀ l, res.leftBiased = some l → IsNode f l := by
  obtain ⟨res, e, hmem, -⟩ := leaves_at hf h
  obtain ⟨o, h1, h2, h3⟩ := caretLeaf hf (isWs := fun _ => false) h
  have ho : o = res.leftBiased := by
    unfold nonWsNodeAtOffset at h1
    rw [File.root, e] at h1
    cases hl : res.leftBiased with
    | none => simp_all
    | some l =>
      simp only [Option.bind_eq_bind, Option.bind_some, hl, Option.bind_eq_some_iff, pure, Option.some.injEq] at h1
      obtain ⟨_, -, h1⟩ := h1
      simpa using h1.symm
  subst ho
  refine ⟨res, e, fun l => (h2 l).trans ?_, h3⟩
  constructor
  · rintro ⟨left, ty, h, -, ⟨-, rfl⟩ | ⟨h, -⟩⟩
    · exact h
    · cases h
  · intro hl
    have hn : IsNode f l := by
      obtain ⟨⟨⟨r, h, -⟩, -⟩, -⟩ := hl
      simp only [File.children, File.data, Option.map_eq_some_iff] at h
      obtain ⟨dt, h, _⟩ := h
      exact isNode_of_getElem h
    exact ⟨l, _, hl, ty_dat hn, .inl ⟨rfl, rfl⟩⟩

/-- The leaf left of the caret. -/
theorem leafBefore_spec {offset back : Nat} (h1 : back ≤ offset) (h2 : offset - back ≤ f.text.length) :
    ∃ o, leafBefore f offset back = some o ∧ (∀ l, o = some l ↔ Leftmost f (LeafAt f (offset - back)) l) ∧
      ∀ l, o = some l → IsNode f l := by
  obtain ⟨res, e, h3, h4⟩ := leftLeaf hf h2
  refine ⟨res.leftBiased, ?_, h3, h4⟩
  simp [leafBefore, unitSub, h1, File.root, e]

theorem leafBefore_panics {offset back : Nat} :
    leafBefore f offset back = none ↔ offset < back ∨ f.text.length < offset - back := by
  by_cases h1 : back ≤ offset
  · by_cases h2 : offset - back ≤ f.text.length
    · obtain ⟨o, e, -⟩ := leafBefore_spec hf h1 h2
      rw [e]
      simp
      omega
    · have h3 := (C17_boundary f hf.nodes 0 (offset - back) _ hf.covers).1
      have h4 : f.findLeafAtOffset f.root (offset - back) = none := by
        cases h : f.findLeafAtOffset f.root (offset - back) with
        | none => rfl
        | some r =>
          rw [File.root] at h
          rw [h] at h3
          exact absurd (h3.1 rfl).2 h2
      simp only [leafBefore, unitSub, if_pos h1, Option.bind_eq_bind, Option.bind_some, h4, Option.bind_none, true_iff]
      omega
  · simp [leafBefore, unitSub, if_neg h1]
    omega

theorem astAncestor_innermost {l : Nat} (hl : IsNode f l) (ty : NodeType) :
    ∃ o, f.astAncestor (· == ty) l = some o ∧ (∀ n, o = some n ↔ Innermost f l (OfType f ty) n) ∧
      ∀ n, o = some n → IsNode f n := by
  obtain ⟨o, h1, h2, h3⟩ := astAncestor_spec hf.nodes hl (· == ty)
  refine ⟨o, h1, fun n => ⟨fun h => ?_, fun h => ?_⟩, fun n h => ?_⟩
  · obtain ⟨g1, ⟨t, g2, g3⟩, g4⟩ := h2 n h
    rw [beq_iff_eq] at g3
    subst g3
    exact ⟨g1, g2, fun m hm ht => g4 m _ hm ht (beq_self_eq_true _)⟩
  · cases o with
    | none =>
      have := h3 rfl n ty h.1 h.2.1
      simp at this
    | some m =>
      obtain ⟨g1, ⟨t, g2, g3⟩, g4⟩ := h2 m rfl
      rw [beq_iff_eq] at g3
      subst g3
      rw [innermost_unique hf ⟨g1, g2, fun m hm ht => g4 m _ hm ht (beq_self_eq_true _)⟩ h]
  · obtain ⟨-, ⟨t, g2, -⟩, -⟩ := h2 n h
    exact ofType_isNode g2

theorem rustName_spec {n : Nat} (hn : IsNode f n) :
    ∃ o, rustName f n = some o ∧ ∀ s, o = some s ↔ Labelled f n 191 s := by
  obtain ⟨c, hc⟩ := childOfType_total hf hn RTy.ident
  have h := (childOfType_some hf hn RTy.ident).1 hc
  cases c with
  | none =>
    refine ⟨none, by simp [rustName, hc], fun s => ⟨fun h => (by cases h), ?_⟩⟩
    rintro ⟨c, h', -⟩
    exact absurd h' (h c)
  | some c =>
    obtain ⟨s, hs, e⟩ := labelled_first hf h
    refine ⟨some s, by simp [rustName, hc, e], fun t => ?_⟩
    constructor
    · intro h
      cases h
      exact hs
    · intro h
      rw [labelled_unique hs h]

theorem astChildren_type {n : Nat} (hn : IsNode f n) (ty : NodeType) :
    ∃ cs, f.astChildren (· == ty) n = some cs ∧ ChildrenWith f n (OfType f ty) cs ∧
      ∀ c, cs.head? = some c ↔ FirstChild f n (OfType f ty) c := by
  obtain ⟨cs, e⟩ : ∃ cs, f.astChildren (· == ty) n = some cs := ⟨_, astChildren_eq hf hn _⟩
  refine ⟨cs, e, ?_, fun c => ?_⟩
  · obtain ⟨all, h1, h2, h3⟩ := (astChildren_wrap hf hn (P := (· = ty)) (by simp)).1 e
    refine ⟨all, h1, h2, fun c hc => (h3 c hc).trans ?_⟩
    constructor
    · rintro ⟨_, h, rfl⟩; exact h
    · intro h; exact ⟨_, h, rfl⟩
  · rw [astChildren_eq hf hn, Option.some.injEq] at e
    subst e
    rw [List.head?_filter, ofType_find hf hn]

omit hf in
theorem childrenWith_empty {n : Nat} {P : Nat → Prop} (h : ChildrenWith f n P []) (c : Nat) (hc : Child f n c) : ¬ P c :=
  fun hp => by cases childrenWith_has h hc hp

end

end Fall
