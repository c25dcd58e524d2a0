import Verif.Lemmas.Indexer

/-!
Property theorems for the file index: C47.
-/

namespace Fall
open Spec Indexer

/-! ## C47 the index reflects the last notification -/

/-- C47. After any history of notifications, the index says about a path what the last look that told
about it found: nothing before the first such look, and after it the value of the file at that time, or
nothing if there was none. -/
theorem C47_last_look (c : Config C V) (fs : FS C) (events : List (FS C × Event)) (q : Path) :
    ((∀ look ∈ looks c fs events, ¬ TellsAbout c look q) → watch c fs events q = none) ∧
    (∀ before look after, looks c fs events = before ++ look :: after → TellsAbout c look q →
      (∀ l ∈ after, ¬ TellsAbout c l q) →
      watch c fs events q = (expected c look.1 q).map fun v => ⟨q, v⟩) := by
  have skip : ∀ (ls : List (FS C × Path)) (data : Data V), (∀ l ∈ ls, ¬ TellsAbout c l q) →
      ls.foldl (fun data look => change c look.1 data look.2) data q = data q := by
    intro ls
    induction ls with
    | nil => exact fun _ _ => rfl
    | cons l ls ih =>
      intro data h
      rw [List.foldl_cons, ih _ (fun x hx => h x (List.mem_cons_of_mem _ hx)),
        change_other (h l List.mem_cons_self)]
  have fil : ∀ (ls : List (FS C × Path)) (data : Data V), ((data q).isSome → c.filter q = true) →
      (ls.foldl (fun data look => change c look.1 data look.2) data q).isSome → c.filter q = true := by
    intro ls
    induction ls with
    | nil => exact fun _ h => h
    | cons l ls ih => exact fun data h => ih _ (change_filter h)
  rw [watch_eq]
  refine ⟨fun h => skip _ _ h, fun before look after h1 h2 h3 => ?_⟩
  rw [h1, List.foldl_append, List.foldl_cons, skip _ _ h3]
  exact change_tells h2 (fil before _ (by simp))

/-- C47. The index is up to date with the file system at a path if the path looks the same now as it did
when it was last looked at. -/
theorem C47_up_to_date (c : Config C V) (fs : FS C) (events : List (FS C × Event)) (now : FS C) (q : Path)
    (before after : List (FS C × Path)) (look : FS C × Path)
    (h : looks c fs events = before ++ look :: after) (ht : TellsAbout c look q)
    (ha : ∀ l ∈ after, ¬ TellsAbout c l q) (hnow : now q = look.1 q) :
    (watch c fs events q).map (·.value) = expected c now q := by
  rw [(C47_last_look c fs events q).2 before look after h ht ha]
  unfold expected
  rw [hnow]
  cases look.1 q with
  | none => rfl
  | some e => cases e <;> simp [Function.comp_def]

/-- The first letter of `.rs` files. -/
def indexExample : Config String Char where
  roots := [["src"]]
  filter q := q.getLast? == some "a.rs" || q.getLast? == some "b.rs"
  mapper _ content := content.toList.head?

/-- A directory with a file. -/
def fsExample (content : String) : FS String := fun q =>
  if q = ["src"] ∨ q = ["src", "m"] then some .dir
  else if q = ["src", "m", "a.rs"] then some (.file content)
  else none

/-- The same after the directory `src/m` has been removed. -/
def fsRemoved : FS String := fun q => if q = ["src"] then some .dir else none

/-- The file is changed; then something else is removed. -/
example :
    let events := [(fsExample "xyz", Event.path ["src", "m", "a.rs"]), (fsExample "xyz", Event.path ["src", "b.rs"])]
    (watch indexExample (fsExample "abc") events ["src", "m", "a.rs"]).map (·.value) = some 'x' := by decide

example : TellsAbout indexExample (fsExample "xyz", ["src", "m", "a.rs"]) ["src", "m", "a.rs"] ∧
    ¬ TellsAbout indexExample (fsExample "xyz", ["src", "b.rs"]) ["src", "m", "a.rs"] := by
  refine ⟨Or.inl ⟨rfl, fun h => ?_⟩, ?_⟩
  · simp [fsExample] at h
  · rintro (⟨h, -⟩ | ⟨h, -⟩)
    · simp at h
    · simp [fsExample] at h

/-- C47. If a directory is removed and the removal of the directory is notified, the index still has the
files that were in it. -/
theorem C47_removed_directory_counterexample :
    ∃ (c : Config String Char) (fs now : FS String) (p q : Path), fs p = some .dir ∧ p <+: q ∧ now q = none ∧
      now p = none ∧ (watch c fs [(now, .path p)] q).isSome :=
  ⟨indexExample, fsExample "abc", fsRemoved, ["src", "m"], ["src", "m", "a.rs"], by simp [fsExample],
    by decide, by simp [fsRemoved], by simp [fsRemoved], by decide⟩

/-- C47. If a file is replaced by a directory, the index still has the file. -/
theorem C47_replaced_file_counterexample :
    ∃ (c : Config String Char) (fs now : FS String) (p : Path), now p = some .dir ∧
      (watch c fs [(now, .path p)] p).isSome :=
  ⟨indexExample, fsExample "abc", fun q => if q = ["src", "m", "a.rs"] then some .dir else fsExample "abc" q,
    ["src", "m", "a.rs"], by simp, by decide⟩

end Fall
