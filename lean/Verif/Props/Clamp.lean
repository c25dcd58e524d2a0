import Verif.Lemmas.Plugin

/-!
C92: positions behind the end of a line.
-/

namespace Fall

open Spec

theorem offsetAt_lines (a doc : List Nat) (k : Nat) :
    offsetAt (a ++ 10 :: doc) ⟨a.count 10 + 1, k⟩ = units (a ++ [10]) + offsetAt doc ⟨0, k⟩ := by
  induction a with
  | nil => simp [offsetAt, units]
  | cons c a ih =>
    rw [List.cons_append, List.cons_append, units_cons]
    by_cases hc : c = 10
    · subst hc
      rw [List.count_cons_self, offsetAt, if_pos rfl, ih]
      omega
    · rw [List.count_cons_of_ne hc, offsetAt, if_neg hc, ih]
      omega

theorem offsetAt_clamp {line rest : List Nat} (h : 10 ∉ line) (hr : rest = [] ∨ rest.head? = some 10) {k : Nat}
    (hk : units line ≤ k) : offsetAt (line ++ rest) ⟨0, k⟩ = units line := by
  induction line generalizing k with
  | nil =>
    rcases hr with rfl | hr
    · rfl
    · cases rest with
      | nil => cases hr
      | cons c rest => cases hr; simp [offsetAt, units]
  | cons c line ih =>
    simp only [List.mem_cons, not_or] at h
    rw [units_cons] at hk
    have hpos : 0 < utf16Len c := by unfold utf16Len; split <;> omega
    rw [units_cons, List.cons_append, offsetAt, if_neg (by omega), ih h.2 (by omega)]

/-- C92. A position behind the end of a line is the end of the line: behind the lines before it (`a` with a line feed,
or nothing) and the units of the line. -/
theorem C92_clamp (a line rest : List Nat) (h : 10 ∉ line) (hr : rest = [] ∨ rest.head? = some 10) (k : Nat)
    (hk : units line ≤ k) :
    offsetAt (line ++ rest) ⟨0, k⟩ = units line ∧
      offsetAt (a ++ 10 :: (line ++ rest)) ⟨a.count 10 + 1, k⟩ = units (a ++ 10 :: line) := by
  refine ⟨offsetAt_clamp h hr hk, ?_⟩
  rw [offsetAt_lines, offsetAt_clamp h hr hk, ← units_append]
  simp

/-- Column 7 of the second line of the lines `a`, `bc`, `d`. -/
example : offsetAt [97, 10, 98, 99, 10, 100] ⟨1, 7⟩ = 4 :=
  (C92_clamp [97] [98, 99] [10, 100] (by decide) (.inr rfl) 7 (by decide)).2

end Fall
