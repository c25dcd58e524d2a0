/-!
Model of the file index: `indxr/src/lib.rs`.

The file system is a parameter, a snapshot for each call of `change`: the calls to the file system in
one call of `change` are assumed to see one state of it. Symbolic links are not modelled.
-/

namespace Fall.Indexer

/-- A path, as the list of its components: `PathBuf` in `indxr/src/lib.rs` 57. -/
abbrev Path := List String

/-- What is at a path: `Path::is_dir`, `Path::exists`, `FileType::is_file` in `indxr/src/lib.rs` 111, 112,
141. -/
inductive Entry (C : Type u) where
  | file (content : C)
  | dir

/-- The state of the file system at one time (`indxr/src/lib.rs` 111-112, 138-141, 146). -/
abbrev FS (C : Type u) := Path → Option (Entry C)

/-- `indxr/src/lib.rs` 19-22, 61-65: which files are indexed, and how. The mapper is given the content of
the file. -/
structure Config (C : Type u) (V : Type v) where
  roots : List Path
  filter : Path → Bool
  mapper : Path → C → Option V

/-- `indxr/src/lib.rs` 56-59. -/
structure IndexedFile (V : Type v) where
  path : Path
  value : V

/-- The index, `indxr/src/lib.rs` 63: a hash map, here a function. -/
abbrev Data (V : Type v) := Path → Option (IndexedFile V)

/-- `HashMap::remove`, as used in `indxr/src/lib.rs` 121, 130. -/
def Data.remove (data : Data V) (path : Path) : Data V := fun q => if q = path then none else data q

/-- `HashMap::insert`, as used in `indxr/src/lib.rs` 125. -/
def Data.insert (data : Data V) (path : Path) (file : IndexedFile V) : Data V :=
  fun q => if q = path then some file else data q

/-- `Path::starts_with`, as used in `indxr/src/lib.rs` 134: by components. -/
def startsWith (q p : Path) : Bool := p.isPrefixOf q

/-- What the loop in `indxr/src/lib.rs` 138-150 collects for path `q`: the files in and below the
directory `path`. `WalkDir` is modelled as finding all of them. -/
def walked (c : Config C V) (fs : FS C) (path q : Path) : Option (IndexedFile V) :=
  if startsWith q path then
    match fs q with
    | some (.file content) => if c.filter q then (c.mapper q content).map fun v => ⟨q, v⟩ else none
    | _ => none
  else none

/-- `indxr/src/lib.rs` 110-155. Line 132, a directory that does not exist, is never reached. -/
def change (c : Config C V) (fs : FS C) (data : Data V) (path : Path) : Data V :=
  match fs path with
  | some (.file content) =>
    if !c.filter path then data
    else match c.mapper path content with
      | none => data.remove path
      | some value => data.insert path ⟨path, value⟩
  | none => data.remove path
  | some .dir => fun q => (walked c fs path q).or (data q)

/-- `notify::DebouncedEvent` as far as it is distinguished in `indxr/src/lib.rs` 86-99. -/
inductive Event where
  | path (p : Path)
  | rename (p1 p2 : Path)
  | other

/-- The paths for which `change` is called, in order: `indxr/src/lib.rs` 86-99. -/
def Event.paths : Event → List Path
  | path p => [p]
  | rename p1 p2 => [p1, p2]
  | other => []

/-- `indxr/src/lib.rs` 69-71, 82-100: the index after the initial walk over the roots, in the state `fs`,
and the given events, each handled in the given state. (A rename is handled in one state.) -/
def watch (c : Config C V) (fs : FS C) (events : List (FS C × Event)) : Data V :=
  let data := c.roots.foldl (change c fs) fun _ => none
  events.foldl (fun data e => e.2.paths.foldl (change c e.1) data) data

end Fall.Indexer
