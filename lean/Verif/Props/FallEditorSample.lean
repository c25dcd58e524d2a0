import Verif.Props.AnalysisSafe

/-! The grammar of the examples is what its text is parsed to. -/

namespace Fall
open Spec AProg

/-- The nodes that a text is parsed to. -/
def parsedNodes (fuel : Nat) (text : List UInt8) : Option (List NodeData) :=
  match (fallDefinition (ruleLexer fallLexRules)).parse fuel (text.map UInt8.toNat) with
  | .ok (file, _) => some file.nodes
  | _ => none

theorem parsedNodes_parse {fuel : Nat} {text : List UInt8} {nodes : List NodeData}
    (h : parsedNodes fuel text = some nodes) : ∃ file data,
      (fallDefinition (ruleLexer fallLexRules)).parse fuel (text.map UInt8.toNat) = .ok (file, data) ∧
        file.nodes = nodes := by
  unfold parsedNodes at h
  split at h
  · rename_i file data hp
    rw [Option.some.injEq] at h
    exact ⟨file, data, hp, h⟩
  · cases h

theorem parsedNodes_shaped {fuel : Nat} {text : List UInt8} {nodes : List NodeData}
    (h : parsedNodes fuel text = some nodes) : ConsistentFile (⟨text, nodes⟩ : File UInt8) ∧ Shaped ⟨text, nodes⟩ := by
  obtain ⟨file, data, hp, rfl⟩ := parsedNodes_parse h
  exact C60_parsed (ruleLexer_lexes _) hp

/-- What a program does with the tree of a text. -/
def ranOn (text : List UInt8) (p : File UInt8 → AProg τ) : Option (Option τ) :=
  match parsedNodes 1000 text with
  | some nodes => (runFuel (analysisBody ⟨text, nodes⟩) 100 (p ⟨text, nodes⟩)).map (·.1)
  | none => none

theorem ranOn_eval {text : List UInt8} {p : File UInt8 → AProg τ} {o : Option τ} (h : ranOn text p = some o) :
    ∃ file data, (fallDefinition (ruleLexer fallLexRules)).parse 1000 (text.map UInt8.toNat) = .ok (file, data) ∧
      ∃ ds, Eval (analysisBody ⟨text, file.nodes⟩) (p ⟨text, file.nodes⟩) o ds := by
  unfold ranOn at h
  split at h
  · rename_i nodes hn
    obtain ⟨file, data, h1, rfl⟩ := parsedNodes_parse hn
    rw [Option.map_eq_some_iff] at h
    obtain ⟨⟨o', ds⟩, h2, rfl⟩ := h
    exact ⟨file, data, h1, ds, runFuel_eval h2⟩
  · cases h

set_option maxRecDepth 100000 in
theorem grammarFile_parsed : parsedNodes 2000 grammarText = some grammarFile.nodes := by decide +kernel

theorem grammarFile_shaped : Shaped grammarFile := (parsedNodes_shaped grammarFile_parsed).2

end Fall
