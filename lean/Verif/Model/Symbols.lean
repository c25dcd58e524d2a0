import Verif.Model.Lines
import Verif.Model.Lex

/-!
Model of the symbol search of the Rust editor plugin: `lang/rust/src/editor/symbol_index.rs`.

`String::to_lowercase` and `char::to_lowercase` are parameters (`lowerStr`, `lowerChar`): the tables of
Unicode are not modelled.
-/

namespace Fall

/-- `lang/rust/src/editor/symbol_index.rs` 116-122. -/
structure Symbol where
  ty : NodeType
  name : List Char
  range : TextRange
  lcRange : LineCol × LineCol
deriving DecidableEq, Repr

/-- `str::as_bytes`, as used in `lang/rust/src/editor/fst_subseq.rs` 27. -/
def bytesOf (s : List Char) : List UInt8 := s.flatMap String.utf8EncodeChar

/-- The order of strings in Rust: that of their bytes. Used by `sort_by_key` in
`lang/rust/src/editor/symbol_index.rs` 105 and by `fst::Map` in line 108. -/
def lexLe : List UInt8 → List UInt8 → Bool
  | [], _ => true
  | _ :: _, [] => false
  | a :: as, b :: bs => decide (a.toNat < b.toNat) || (decide (a = b) && lexLe as bs)

/-- `Vec::dedup_by_key`, `lang/rust/src/editor/symbol_index.rs` 106: of neighbours with the same key the
first is kept. -/
def dedupByKey (key : α → List UInt8) : List α → List α
  | [] => []
  | [a] => [a]
  | a :: b :: rest =>
    if key a = key b then dedupByKey key (a :: rest) else a :: dedupByKey key (b :: rest)
termination_by l => l.length

/-- `lang/rust/src/editor/symbol_index.rs` 86-89: the map from lowered names to indices, as the list of
its entries. -/
structure FileSymbols where
  symbols : List Symbol
  map : List (List UInt8 × Nat)

/-- `fst::Map::from_iter`, `lang/rust/src/editor/symbol_index.rs` 108-110: an error, and so a panic
because of the `unwrap`, unless the keys are strictly increasing. -/
def fstMap (entries : List (List UInt8 × Nat)) : Option (List (List UInt8 × Nat)) :=
  let rec ok : List (List UInt8 × Nat) → Bool
    | a :: b :: rest => lexLe a.1 b.1 && decide (a.1 ≠ b.1) && ok (b :: rest)
    | _ => true
  if ok entries then some entries else none

/-- `lang/rust/src/editor/symbol_index.rs` 92-113, from line 105 on: `found` are the symbols collected in
lines 93-104. `sort_by_key` is a stable sort. -/
def FileSymbols.new (lowerStr : List Char → List Char) (found : List Symbol) : Option FileSymbols := do
  let key (s : Symbol) := bytesOf (lowerStr s.name)
  let symbols := dedupByKey key (found.mergeSort fun a b => lexLe (key a) (key b))
  let map ← fstMap ((symbols.map key).zipIdx)
  some ⟨symbols, map⟩

/-- `lang/rust/src/editor/symbol_index.rs` 52-55. -/
structure SymQuery where
  query : List Char
  allSymbols : Bool

/-- `lang/rust/src/editor/symbol_index.rs` 58-65. -/
def SymQuery.new (lowerChar : Char → List Char) (query : List Char) : SymQuery :=
  ⟨(query.filter (· != '#')).flatMap lowerChar, query.contains '#'⟩

/-- `lang/rust/src/editor/symbol_index.rs` 68-73; the numbers are in `lang/rust/syntax/src/rust.rs` 105,
108, 112 and 114. -/
def isTypeDef (ty : NodeType) : Bool := [202, 205, 209, 211].contains ty

/-- `lang/rust/src/editor/symbol_index.rs` 67-83. The search of the external crate `fst` is modelled as
running the automaton over the keys. Panics if an index is out of bounds. -/
def SymQuery.process (q : SymQuery) (file : FileSymbols) : Option (List Symbol) := do
  let a : FstSubSeq := ⟨bytesOf q.query⟩
  let hits := file.map.filter fun e => a.isMatch (e.1.foldl a.accept a.start)
  let symbols ← hits.mapM fun e => file.symbols[e.2]?
  some (symbols.filter fun s => q.allSymbols || isTypeDef s.ty)

/-- `lang/rust/src/editor/symbol_index.rs` 42-49, with `indxr/src/lib.rs` 46-53: the files in the order
of the index. -/
def processQuery (q : SymQuery) : List (P × FileSymbols) → List (P × Symbol) → Option (List (P × Symbol))
  | [], acc => some acc
  | file :: files, acc => do
    let symbols ← q.process file.2
    let acc := acc ++ symbols.map fun s => (file.1, s)
    if acc.length > 512 then some acc else processQuery q files acc

/-- `lang/rust/src/editor/symbol_index.rs` 31-40. -/
def symbolQuery (lowerChar : Char → List Char) (files : List (P × FileSymbols)) (query : List Char) :
    Option (List (P × Symbol)) := do
  let q := SymQuery.new lowerChar query
  let result ← processQuery q files []
  if result.isEmpty && !q.allSymbols then processQuery { q with allSymbols := true } files result
  else some result

end Fall
