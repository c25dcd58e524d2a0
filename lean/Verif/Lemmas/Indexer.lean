import Verif.Spec.Indexer

/-!
Lemmas about the file index.
-/

namespace Fall
open Spec Indexer

theorem change_tells {c : Config C V} {fs : FS C} {data : Data V} {p q : Path} (h : TellsAbout c (fs, p) q)
    (hf : (data q).isSome → c.filter q = true) :
    change c fs data p q = (expected c fs q).map fun v => ⟨q, v⟩ := by
  rcases h with ⟨h1, h2⟩ | ⟨h1, h2, h3⟩
  · simp only at h1 h2
    subst h1
    unfold change expected
    cases hc : fs p with
    | none => simp [Data.remove]
    | some e =>
      cases e with
      | dir => exact absurd hc h2
      | file content =>
        simp only
        by_cases hfil : c.filter p = true
        · simp only [hfil, Bool.not_true, Bool.false_eq_true, if_false, if_true]
          cases hm : c.mapper p content <;> simp [Data.remove, Data.insert]
        · simp only [hfil, Bool.not_false, if_true, Bool.false_eq_true, if_false, Option.map_none]
          cases hd : data p with
          | none => rfl
          | some x => exact absurd (hf (by simp [hd])) hfil
  · simp only at h1 h2 h3
    have hp : startsWith q p = true := by simpa [startsWith] using h2
    simp only [change, h1, walked, hp, if_true]
    unfold expected at h3 ⊢
    cases hq : fs q with
    | none => simp [hq] at h3
    | some e =>
      cases e with
      | dir => simp [hq] at h3
      | file content =>
        simp only [hq] at h3 ⊢
        by_cases hfil : c.filter q = true
        · rw [if_pos hfil] at h3 ⊢
          cases hm : c.mapper q content with
          | none => rw [hm] at h3; simp at h3
          | some v => simp [hfil, hm]
        · rw [if_neg hfil] at h3
          simp at h3

theorem change_other {c : Config C V} {fs : FS C} {data : Data V} {p q : Path} (h : ¬ TellsAbout c (fs, p) q) :
    change c fs data p q = data q := by
  simp only [TellsAbout, not_or, not_and] at h
  obtain ⟨h1, h2⟩ := h
  unfold change
  cases hc : fs p with
  | none =>
    have hpq : q ≠ p := by
      rintro rfl
      exact h1 rfl (fun hd => by rw [hc] at hd; cases hd)
    simp [Data.remove, hpq]
  | some e =>
    cases e with
    | file content =>
      have hpq : q ≠ p := by
        rintro rfl
        exact h1 rfl (fun hd => by rw [hc] at hd; cases hd)
      simp only
      by_cases hfil : c.filter p = true
      · cases hm : c.mapper p content <;> simp [hfil, Data.remove, Data.insert, hpq]
      · simp [hfil]
    | dir =>
      simp only [walked]
      by_cases hp : startsWith q p = true
      · have := h2 hc (by simpa [startsWith] using hp)
        unfold expected at this
        cases hq : fs q with
        | none => simp
        | some e =>
          cases e with
          | dir => simp
          | file content =>
            simp only [hq] at this
            by_cases hfil : c.filter q = true
            · rw [if_pos hfil] at this
              cases hm : c.mapper q content with
              | none => simp [hm]
              | some v => rw [hm] at this; simp at this
            · simp [hfil]
      · simp [hp]

theorem change_filter {c : Config C V} {fs : FS C} {data : Data V} {p q : Path}
    (hf : (data q).isSome → c.filter q = true) (h : (change c fs data p q).isSome) : c.filter q = true := by
  by_cases ht : TellsAbout c (fs, p) q
  · rw [change_tells ht hf] at h
    unfold expected at h
    split at h
    · split at h
      · assumption
      · simp at h
    · simp at h
  · rw [change_other ht] at h
    exact hf h

theorem paths_about (e : Event) : e.paths = about e := by cases e <;> rfl

theorem watch_eq (c : Config C V) (fs : FS C) (events : List (FS C × Event)) :
    watch c fs events = (looks c fs events).foldl (fun data look => change c look.1 data look.2) fun _ => none := by
  unfold watch looks
  rw [List.foldl_append, List.foldl_map, List.foldl_flatMap]
  simp only [List.foldl_map, paths_about]

end Fall
