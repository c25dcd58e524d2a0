import Verif.Lemmas.AnalysisWhole

/-! A grammar for the examples about analysis, and a way to evaluate queries. -/

namespace Fall
open Spec AProg

/-- The grammar of the examples:

```
tokenizer { a 'a' }
pub rule s { <f 'a'> x }
rule f(p) { p <is_in 'c'> }
#[bin(1)] rule e { s 'a' s }
ast { node s: t, u { b a? } trait t { } }
```
-/
def grammarText : List UInt8 :=
  ascii ("tokenizer { a 'a' }\npub rule s { <f 'a'> x }\nrule f(p) { p <is_in 'c'> }\n" ++
    "#[bin(1)] rule e { s 'a' s }\nast { node s: t, u { b a? } trait t { } }")

/-- The tree of the grammar, below the root. -/
def grammarForest : Forest :=
    (.node 141 (.leaf 105 9 (.leaf 100 1 (.leaf 119 1 (.leaf 100 1 (.node 142 (.leaf 130 1 (.leaf 100 1 (.node
    147 (.leaf 128 3 .nil) .nil))) (.leaf 100 1 (.leaf 120 1 .nil))))))) (.leaf 100 1 (.node 132 (.leaf 109 3
    (.leaf 100 1 (.leaf 106 4 (.leaf 100 1 (.leaf 130 1 (.leaf 100 1 (.node 137 (.leaf 119 1 (.leaf 100 1 (.node
    136 (.node 140 (.leaf 123 1 (.leaf 130 1 (.leaf 100 1 (.node 135 (.leaf 128 3 .nil) (.leaf 124 1 .nil)))))
    (.leaf 100 1 (.node 135 (.leaf 130 1 .nil) .nil))) (.leaf 100 1 (.leaf 120 1 .nil))))) .nil))))))) (.leaf
    100 1 (.node 132 (.leaf 106 4 (.leaf 100 1 (.leaf 130 1 (.node 133 (.leaf 125 1 (.node 134 (.leaf 130 1
    .nil) (.leaf 126 1 .nil))) (.leaf 100 1 (.node 137 (.leaf 119 1 (.leaf 100 1 (.node 136 (.node 135 (.leaf
    130 1 .nil) (.leaf 100 1 (.node 140 (.leaf 123 1 (.leaf 130 5 (.leaf 100 1 (.node 135 (.leaf 128 3 .nil)
    (.leaf 124 1 .nil))))) .nil))) (.leaf 100 1 (.leaf 120 1 .nil))))) .nil)))))) (.leaf 100 1 (.node 132 (.node
    144 (.leaf 118 1 (.leaf 121 1 (.node 145 (.leaf 130 3 (.leaf 125 1 (.node 146 (.leaf 127 1 .nil) (.leaf 126
    1 .nil)))) (.leaf 122 1 .nil)))) (.leaf 100 1 (.leaf 106 4 (.leaf 100 1 (.leaf 130 1 (.leaf 100 1 (.node 137
    (.leaf 119 1 (.leaf 100 1 (.node 136 (.node 135 (.leaf 130 1 .nil) (.leaf 100 1 (.node 135 (.leaf 128 3
    .nil) (.leaf 100 1 (.node 135 (.leaf 130 1 .nil) .nil))))) (.leaf 100 1 (.leaf 120 1 .nil))))) .nil)))))))
    (.leaf 100 1 (.node 149 (.leaf 108 3 (.leaf 100 1 (.leaf 119 1 (.leaf 100 1 (.node 150 (.leaf 102 4 (.leaf
    100 1 (.leaf 130 1 (.leaf 117 1 (.leaf 100 1 (.leaf 130 1 (.leaf 116 1 (.leaf 100 1 (.leaf 130 1 (.leaf 100
    1 (.leaf 119 1 (.leaf 100 1 (.node 153 (.leaf 130 1 (.leaf 100 1 (.node 154 (.leaf 130 1 (.leaf 114 1 .nil))
    .nil))) (.leaf 100 1 (.leaf 120 1 .nil))))))))))))))) (.leaf 100 1 (.node 152 (.leaf 104 5 (.leaf 100 1
    (.leaf 130 1 (.leaf 100 1 (.leaf 119 1 (.leaf 100 1 (.leaf 120 1 .nil))))))) (.leaf 100 1 (.leaf 120 1
    .nil))))))))) .nil)))))))))

/-- Nodes of the grammar, from number 0. -/
def grammarNodes1 : List NodeData :=
  [
    ⟨131, none, [1, 13, 14, 37, 38, 64, 65, 95, 96], ⟨0, 143⟩⟩, ⟨141, some 0, [2, 3, 4, 5, 6, 11, 12], ⟨0, 19⟩⟩,
    ⟨105, some 1, [], ⟨0, 9⟩⟩, ⟨100, some 1, [], ⟨9, 10⟩⟩, ⟨119, some 1, [], ⟨10, 11⟩⟩,
    ⟨100, some 1, [], ⟨11, 12⟩⟩, ⟨142, some 1, [7, 8, 9], ⟨12, 17⟩⟩, ⟨130, some 6, [], ⟨12, 13⟩⟩,
    ⟨100, some 6, [], ⟨13, 14⟩⟩, ⟨147, some 6, [10], ⟨14, 17⟩⟩, ⟨128, some 9, [], ⟨14, 17⟩⟩,
    ⟨100, some 1, [], ⟨17, 18⟩⟩, ⟨120, some 1, [], ⟨18, 19⟩⟩, ⟨100, some 0, [], ⟨19, 20⟩⟩,
    ⟨132, some 0, [15, 16, 17, 18, 19, 20, 21], ⟨20, 44⟩⟩, ⟨109, some 14, [], ⟨20, 23⟩⟩,
    ⟨100, some 14, [], ⟨23, 24⟩⟩, ⟨106, some 14, [], ⟨24, 28⟩⟩, ⟨100, some 14, [], ⟨28, 29⟩⟩,
    ⟨130, some 14, [], ⟨29, 30⟩⟩, ⟨100, some 14, [], ⟨30, 31⟩⟩, ⟨137, some 14, [22, 23, 24, 35, 36], ⟨31, 44⟩⟩,
    ⟨119, some 21, [], ⟨31, 32⟩⟩, ⟨100, some 21, [], ⟨32, 33⟩⟩, ⟨136, some 21, [25, 32, 33], ⟨33, 42⟩⟩,
    ⟨140, some 24, [26, 27, 28, 29, 31], ⟨33, 40⟩⟩, ⟨123, some 25, [], ⟨33, 34⟩⟩, ⟨130, some 25, [], ⟨34, 35⟩⟩]

/-- Nodes of the grammar, from number 28. -/
def grammarNodes2 : List NodeData :=
  [
    ⟨100, some 25, [], ⟨35, 36⟩⟩, ⟨135, some 25, [30], ⟨36, 39⟩⟩, ⟨128, some 29, [], ⟨36, 39⟩⟩,
    ⟨124, some 25, [], ⟨39, 40⟩⟩, ⟨100, some 24, [], ⟨40, 41⟩⟩, ⟨135, some 24, [34], ⟨41, 42⟩⟩,
    ⟨130, some 33, [], ⟨41, 42⟩⟩, ⟨100, some 21, [], ⟨42, 43⟩⟩, ⟨120, some 21, [], ⟨43, 44⟩⟩,
    ⟨100, some 0, [], ⟨44, 45⟩⟩, ⟨132, some 0, [39, 40, 41, 42, 47, 48], ⟨45, 72⟩⟩, ⟨106, some 38, [], ⟨45, 49⟩⟩,
    ⟨100, some 38, [], ⟨49, 50⟩⟩, ⟨130, some 38, [], ⟨50, 51⟩⟩, ⟨133, some 38, [43, 44, 46], ⟨51, 54⟩⟩,
    ⟨125, some 42, [], ⟨51, 52⟩⟩, ⟨134, some 42, [45], ⟨52, 53⟩⟩, ⟨130, some 44, [], ⟨52, 53⟩⟩,
    ⟨126, some 42, [], ⟨53, 54⟩⟩, ⟨100, some 38, [], ⟨54, 55⟩⟩, ⟨137, some 38, [49, 50, 51, 62, 63], ⟨55, 72⟩⟩,
    ⟨119, some 48, [], ⟨55, 56⟩⟩, ⟨100, some 48, [], ⟨56, 57⟩⟩, ⟨136, some 48, [52, 54, 55], ⟨57, 70⟩⟩,
    ⟨135, some 51, [53], ⟨57, 58⟩⟩, ⟨130, some 52, [], ⟨57, 58⟩⟩, ⟨100, some 51, [], ⟨58, 59⟩⟩,
    ⟨140, some 51, [56, 57, 58, 59, 61], ⟨59, 70⟩⟩]

/-- Nodes of the grammar, from number 56. -/
def grammarNodes3 : List NodeData :=
  [
    ⟨123, some 55, [], ⟨59, 60⟩⟩, ⟨130, some 55, [], ⟨60, 65⟩⟩, ⟨100, some 55, [], ⟨65, 66⟩⟩,
    ⟨135, some 55, [60], ⟨66, 69⟩⟩, ⟨128, some 59, [], ⟨66, 69⟩⟩, ⟨124, some 55, [], ⟨69, 70⟩⟩,
    ⟨100, some 48, [], ⟨70, 71⟩⟩, ⟨120, some 48, [], ⟨71, 72⟩⟩, ⟨100, some 0, [], ⟨72, 73⟩⟩,
    ⟨132, some 0, [66, 76, 77, 78, 79, 80, 81], ⟨73, 101⟩⟩, ⟨144, some 65, [67, 68, 69, 75], ⟨73, 82⟩⟩,
    ⟨118, some 66, [], ⟨73, 74⟩⟩, ⟨121, some 66, [], ⟨74, 75⟩⟩, ⟨145, some 66, [70, 71, 72, 74], ⟨75, 81⟩⟩,
    ⟨130, some 69, [], ⟨75, 78⟩⟩, ⟨125, some 69, [], ⟨78, 79⟩⟩, ⟨146, some 69, [73], ⟨79, 80⟩⟩,
    ⟨127, some 72, [], ⟨79, 80⟩⟩, ⟨126, some 69, [], ⟨80, 81⟩⟩, ⟨122, some 66, [], ⟨81, 82⟩⟩,
    ⟨100, some 65, [], ⟨82, 83⟩⟩, ⟨106, some 65, [], ⟨83, 87⟩⟩, ⟨100, some 65, [], ⟨87, 88⟩⟩,
    ⟨130, some 65, [], ⟨88, 89⟩⟩, ⟨100, some 65, [], ⟨89, 90⟩⟩, ⟨137, some 65, [82, 83, 84, 93, 94], ⟨90, 101⟩⟩,
    ⟨119, some 81, [], ⟨90, 91⟩⟩, ⟨100, some 81, [], ⟨91, 92⟩⟩]

/-- Nodes of the grammar, from number 84. -/
def grammarNodes4 : List NodeData :=
  [
    ⟨136, some 81, [85, 87, 88, 90, 91], ⟨92, 99⟩⟩, ⟨135, some 84, [86], ⟨92, 93⟩⟩, ⟨130, some 85, [], ⟨92, 93⟩⟩,
    ⟨100, some 84, [], ⟨93, 94⟩⟩, ⟨135, some 84, [89], ⟨94, 97⟩⟩, ⟨128, some 88, [], ⟨94, 97⟩⟩,
    ⟨100, some 84, [], ⟨97, 98⟩⟩, ⟨135, some 84, [92], ⟨98, 99⟩⟩, ⟨130, some 91, [], ⟨98, 99⟩⟩,
    ⟨100, some 81, [], ⟨99, 100⟩⟩, ⟨120, some 81, [], ⟨100, 101⟩⟩, ⟨100, some 0, [], ⟨101, 102⟩⟩,
    ⟨149, some 0, [97, 98, 99, 100, 101, 122, 123, 131, 132], ⟨102, 143⟩⟩, ⟨108, some 96, [], ⟨102, 105⟩⟩,
    ⟨100, some 96, [], ⟨105, 106⟩⟩, ⟨119, some 96, [], ⟨106, 107⟩⟩, ⟨100, some 96, [], ⟨107, 108⟩⟩,
    ⟨150, some 96, [102, 103, 104, 105, 106, 107, 108, 109, 110, 111, 112, 113, 114, 120, 121], ⟨108, 129⟩⟩,
    ⟨102, some 101, [], ⟨108, 112⟩⟩, ⟨100, some 101, [], ⟨112, 113⟩⟩, ⟨130, some 101, [], ⟨113, 114⟩⟩,
    ⟨117, some 101, [], ⟨114, 115⟩⟩, ⟨100, some 101, [], ⟨115, 116⟩⟩, ⟨130, some 101, [], ⟨116, 117⟩⟩,
    ⟨116, some 101, [], ⟨117, 118⟩⟩, ⟨100, some 101, [], ⟨118, 119⟩⟩, ⟨130, some 101, [], ⟨119, 120⟩⟩,
    ⟨100, some 101, [], ⟨120, 121⟩⟩]

/-- Nodes of the grammar, from number 112. -/
def grammarNodes5 : List NodeData :=
  [
    ⟨119, some 101, [], ⟨121, 122⟩⟩, ⟨100, some 101, [], ⟨122, 123⟩⟩, ⟨153, some 101, [115, 116, 117], ⟨123, 127⟩⟩,
    ⟨130, some 114, [], ⟨123, 124⟩⟩, ⟨100, some 114, [], ⟨124, 125⟩⟩, ⟨154, some 114, [118, 119], ⟨125, 127⟩⟩,
    ⟨130, some 117, [], ⟨125, 126⟩⟩, ⟨114, some 117, [], ⟨126, 127⟩⟩, ⟨100, some 101, [], ⟨127, 128⟩⟩,
    ⟨120, some 101, [], ⟨128, 129⟩⟩, ⟨100, some 96, [], ⟨129, 130⟩⟩,
    ⟨152, some 96, [124, 125, 126, 127, 128, 129, 130], ⟨130, 141⟩⟩, ⟨104, some 123, [], ⟨130, 135⟩⟩,
    ⟨100, some 123, [], ⟨135, 136⟩⟩, ⟨130, some 123, [], ⟨136, 137⟩⟩, ⟨100, some 123, [], ⟨137, 138⟩⟩,
    ⟨119, some 123, [], ⟨138, 139⟩⟩, ⟨100, some 123, [], ⟨139, 140⟩⟩, ⟨120, some 123, [], ⟨140, 141⟩⟩,
    ⟨100, some 96, [], ⟨141, 142⟩⟩, ⟨120, some 96, [], ⟨142, 143⟩⟩]

/-- The grammar with its tree. -/
def grammarFile : File UInt8 :=
  ⟨grammarText, grammarNodes1 ++ grammarNodes2 ++ grammarNodes3 ++ grammarNodes4 ++ grammarNodes5⟩

theorem grammarFile_consistent : ConsistentFile grammarFile := by
  obtain ⟨f, h1, _, h2, _⟩ := C14_build_consistent (Forest.node 131 grammarForest .nil).ops
    (forest_singleRoot 131 grammarForest) grammarText (by decide +kernel)
  have : newFile grammarText (Forest.node 131 grammarForest .nil).ops = some grammarFile := by decide +kernel
  rw [this, Option.some.injEq] at h1
  rw [h1]
  exact h2

/-- Execute a program with at most so many nested steps. -/
def runFuel (body : (q : Q) → Prog Q V D (V q)) : Nat → {α : Type} → Prog Q V D α → Option (Option α × List D)
  | 0, _, _ => none
  | _ + 1, _, .ret v => some (some v, [])
  | _ + 1, _, .panic => some (none, [])
  | n + 1, _, .emit d k =>
    match runFuel body n k with
    | some (o, ds) => some (o, d :: ds)
    | none => none
  | n + 1, _, .ask q k =>
    match runFuel body n (body q) with
    | some (some v, _) => runFuel body n (k v)
    | some (none, _) => some (none, [])
    | none => none

theorem runFuel_eval {body : (q : Q) → Prog Q V D (V q)} {n : Nat} {α : Type} {p : Prog Q V D α} {o : Option α}
    {ds : List D} (h : runFuel body n p = some (o, ds)) : Eval body p o ds := by
  induction n generalizing α o ds with
  | zero => simp [runFuel] at h
  | succ n ih =>
    cases p with
    | ret v =>
      simp only [runFuel, Option.some.injEq, Prod.mk.injEq] at h
      obtain ⟨rfl, rfl⟩ := h
      exact .ret
    | panic =>
      simp only [runFuel, Option.some.injEq, Prod.mk.injEq] at h
      obtain ⟨rfl, rfl⟩ := h
      exact .panic
    | emit d k =>
      simp only [runFuel] at h
      split at h
      · rename_i o' ds' hk
        simp only [Option.some.injEq, Prod.mk.injEq] at h
        obtain ⟨rfl, rfl⟩ := h
        exact .emit (ih hk)
      · cases h
    | ask q k =>
      simp only [runFuel] at h
      split at h
      · rename_i v ds' hq
        exact .ask (ih hq) (ih h)
      · rename_i ds' hq
        simp only [Option.some.injEq, Prod.mk.injEq] at h
        obtain ⟨rfl, rfl⟩ := h
        exact .ask_panic (ih hq)
      · cases h

/-- Collecting the diagnostics of the grammar does not panic. -/
theorem grammar_collect : Eval (analysisBody grammarFile) (collectRequests grammarFile) (some ()) [] :=
  runFuel_eval (n := 100) (by decide +kernel)

end Fall

