import Verif.Model.Indexer

/-!
Vocabulary for the file index.
-/

namespace Fall.Spec

open Indexer

/-- What the index should say about a path in the given state of the file system: the value of the
file, if there is one, it is to be indexed, and it has a value. -/
def expected (c : Config C V) (fs : FS C) (q : Path) : Option V :=
  match fs q with
  | some (.file content) => if c.filter q then c.mapper q content else none
  | _ => none

/-- The paths an event is about: the one it names, or both the source and the target of a rename. -/
def about : Event → List Path
  | .path p => [p]
  | .rename p1 p2 => [p1, p2]
  | .other => []

/-- The paths looked at, with the states in which they are looked at: first the roots, then those of
the events. -/
def looks (c : Config C V) (fs : FS C) (events : List (FS C × Event)) : List (FS C × Path) :=
  c.roots.map (fun p => (fs, p)) ++ events.flatMap fun e => (about e.2).map fun p => (e.1, p)

/-- Looking at path `p` tells about path `q`: it is the same path, and no directory, or `p` is a
directory, and there is a file with a value at `q` in it or below it. -/
def TellsAbout (c : Config C V) (look : FS C × Path) (q : Path) : Prop :=
  (look.2 = q ∧ look.1 q ≠ some .dir) ∨
  (look.1 look.2 = some .dir ∧ look.2 <+: q ∧ (expected c look.1 q).isSome)

end Fall.Spec
