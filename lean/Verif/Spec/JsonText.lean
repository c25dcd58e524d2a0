import Verif.Spec.ArithText

/-!
JSON documents as texts, with the numbers and strings of `json.fall`.
-/

namespace Fall.Spec

/-- A string: anything but quotes, between quotes. -/
def QuotedText (s : List Nat) : Prop := ∃ t : List Nat, s = 34 :: (t ++ [34]) ∧ ∀ c ∈ t, c ≠ 34

/-- Blanks. -/
def BlankText (s : List Nat) : Prop := ∀ c ∈ s, BlankChar c

mutual

/-- Values: `null`, `true`, `false`, strings, numbers of digits, objects and arrays. -/
inductive JsonText : List Nat → Prop
  | null : JsonText [110, 117, 108, 108]
  | yes : JsonText [116, 114, 117, 101]
  | no : JsonText [102, 97, 108, 115, 101]
  | string {s : List Nat} : QuotedText s → JsonText s
  | number {ds : List Nat} : ds ≠ [] → (∀ d ∈ ds, DecimalDigit d) → JsonText ds
  | block {s : List Nat} : JsonBlock s → JsonText s

/-- Objects and arrays. -/
inductive JsonBlock : List Nat → Prop
  | emptyObject {b : List Nat} : BlankText b → JsonBlock (123 :: (b ++ [125]))
  | object {s : List Nat} : JsonFields s → JsonBlock (123 :: (s ++ [125]))
  | emptyArray {b : List Nat} : BlankText b → JsonBlock (91 :: (b ++ [93]))
  | array {s : List Nat} : JsonElements s → JsonBlock (91 :: (s ++ [93]))

/-- Fields: a name, a colon and a value, with commas between them and blanks anywhere. -/
inductive JsonFields : List Nat → Prop
  | one {a k b c v d : List Nat} : BlankText a → QuotedText k → BlankText b → BlankText c → JsonText v → BlankText d →
    JsonFields (a ++ (k ++ (b ++ 58 :: (c ++ (v ++ d)))))
  | more {a k b c v d r : List Nat} : BlankText a → QuotedText k → BlankText b → BlankText c → JsonText v →
    BlankText d → JsonFields r → JsonFields (a ++ (k ++ (b ++ 58 :: (c ++ (v ++ (d ++ 44 :: r))))))

/-- Elements, with commas between them and blanks anywhere. -/
inductive JsonElements : List Nat → Prop
  | one {c v d : List Nat} : BlankText c → JsonText v → BlankText d → JsonElements (c ++ (v ++ d))
  | more {c v d r : List Nat} : BlankText c → JsonText v → BlankText d → JsonElements r →
    JsonElements (c ++ (v ++ (d ++ 44 :: r)))

end

/-- A document: an object or an array, with blanks around it. -/
def JsonDocument (s : List Nat) : Prop := ∃ a b c, s = a ++ (b ++ c) ∧ BlankText a ∧ JsonBlock b ∧ BlankText c

end Fall.Spec
